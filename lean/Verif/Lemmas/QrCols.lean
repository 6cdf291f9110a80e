import Verif.Lemmas.QrBlocked
import Verif.Lemmas.Fit

/-!
Blocked Householder QR: the drivers column by column.
-/

set_option linter.unusedSectionVars false
set_option linter.unusedVariables false

namespace Verif
open Finset

variable {R : Type} [CommRing R]

namespace Mat

/-! ### the reflector of one block column, on whole columns -/

/-- Block column `k` of reflectors acting on the rows of blocks `k..p-1`. -/
def hop (p : Nat) (h : Nat → Nat) (Y : Nat → Nat → Mat R) (t : Nat → Dense R) (trans : Bool) (k : Nat)
    (v : Ix → R) (x : Ix) : R :=
  if k ≤ x.1 then
    refl (rowsFrom k p h) (h k) (refv k (fun i => Y i k)) (opFun trans ((t k).tri .upper false)) v x
  else v x

/-- Equal on all rows. -/
def EqOn (p : Nat) (h : Nat → Nat) (v v' : Ix → R) : Prop := ∀ x ∈ rowsFrom 0 p h, v x = v' x

theorem EqOn.trans {p : Nat} {h : Nat → Nat} {u v w : Ix → R} (a : EqOn p h u v) (b : EqOn p h v w) :
    EqOn p h u w := fun x hx => (a x hx).trans (b x hx)

theorem EqOn.symm {p : Nat} {h : Nat → Nat} {u v : Ix → R} (a : EqOn p h u v) : EqOn p h v u :=
  fun x hx => (a x hx).symm

theorem rowsFrom_sub {k p : Nat} {h : Nat → Nat} {x : Ix} (hx : x ∈ rowsFrom k p h) :
    x ∈ rowsFrom 0 p h := by
  rw [mem_rowsFrom] at hx ⊢
  omega

theorem hop_congr {p : Nat} {h : Nat → Nat} {Y : Nat → Nat → Mat R} {t : Nat → Dense R} {trans : Bool}
    {k : Nat} {v v' : Ix → R} (e : EqOn p h v v') :
    EqOn p h (hop p h Y t trans k v) (hop p h Y t trans k v') := by
  intro x hx
  unfold hop
  by_cases hk : k ≤ x.1
  · rw [if_pos hk, if_pos hk]
    refine refl_congr (fun _ _ _ _ => rfl) (fun _ _ _ _ => rfl) (fun z hz => e z (rowsFrom_sub hz)) x ?_
    rw [mem_rowsFrom] at hx ⊢
    omega
  · rw [if_neg hk, if_neg hk]
    exact e x hx

theorem hop_cancel {p : Nat} {h : Nat → Nat} {Y : Nat → Nat → Mat R} {t : Nat → Dense R} {k : Nat}
    (ho : ReflOrth (rowsFrom k p h) (h k) (refv k (fun i => Y i k)) ((t k).tri .upper false))
    (trans : Bool) (v : Ix → R) : EqOn p h (hop p h Y t (!trans) k (hop p h Y t trans k v)) v := by
  intro x hx
  unfold hop
  by_cases hk : k ≤ x.1
  · rw [if_pos hk]
    have hxk : x ∈ rowsFrom k p h := by
      rw [mem_rowsFrom] at hx ⊢
      omega
    rw [refl_congr (Y' := refv k (fun i => Y i k)) (T' := opFun (!trans) ((t k).tri .upper false))
      (x' := refl (rowsFrom k p h) (h k) (refv k (fun i => Y i k))
        (opFun trans ((t k).tri .upper false)) v) (fun _ _ _ _ => rfl) (fun _ _ _ _ => rfl)
      (fun z hz => if_pos (mem_rowsFrom.1 hz).1.1) x hxk]
    cases trans with
    | false => exact (ho v x hxk).2
    | true => exact (ho v x hxk).1
  · rw [if_neg hk, if_neg hk]

/-- Reflectors one after the other. -/
def hops (p : Nat) (h : Nat → Nat) (Y : Nat → Nat → Mat R) (t : Nat → Dense R) (trans : Bool)
    (ks : List Nat) (v : Ix → R) : Ix → R :=
  ks.foldl (fun v k => hop p h Y t trans k v) v

theorem hops_congr {p : Nat} {h : Nat → Nat} {Y : Nat → Nat → Mat R} {t : Nat → Dense R} {trans : Bool}
    {ks : List Nat} {v v' : Ix → R} (e : EqOn p h v v') :
    EqOn p h (hops p h Y t trans ks v) (hops p h Y t trans ks v') := by
  induction ks generalizing v v' with
  | nil => exact e
  | cons k ks ih => exact ih (hop_congr e)

theorem hops_append {p : Nat} {h : Nat → Nat} {Y : Nat → Nat → Mat R} {t : Nat → Dense R} {trans : Bool}
    {ks ks' : List Nat} {v : Ix → R} :
    hops p h Y t trans (ks ++ ks') v = hops p h Y t trans ks' (hops p h Y t trans ks v) := by
  unfold hops
  rw [List.foldl_append]

theorem hops_cancel {p : Nat} {h : Nat → Nat} {Y : Nat → Nat → Mat R} {t : Nat → Dense R} {trans : Bool}
    {ks : List Nat} (ho : ∀ k ∈ ks,
      ReflOrth (rowsFrom k p h) (h k) (refv k (fun i => Y i k)) ((t k).tri .upper false))
    (v : Ix → R) : EqOn p h (hops p h Y t (!trans) ks.reverse (hops p h Y t trans ks v)) v := by
  induction ks generalizing v with
  | nil => exact fun _ _ => rfl
  | cons k ks ih =>
    rw [List.reverse_cons, hops_append]
    have h1 := ih (fun k' hk' => ho k' (List.mem_cons_of_mem _ hk')) (hop p h Y t trans k v)
    have h2 := hop_congr (Y := Y) (t := t) (trans := !trans) (k := k) h1
    exact h2.trans (hop_cancel (ho k (List.mem_cons_self)) trans v)

/-! ### sequences of applications -/

variable [DecidableEq R] {o : LrOps R}

/-- Consistent blocks of the given heights and width. -/
def ColOk (ex : Prop) (p : Nat) (h : Nat → Nat) (w : Nat) (c : Nat → Mat R) : Prop :=
  ∀ i < p, Good ex (c i) ∧ (c i).nRows = h i ∧ (c i).nCols = w

theorem rowsFrom_congr {k p : Nat} {h h' : Nat → Nat} (e : ∀ i < p, h i = h' i) :
    rowsFrom k p h = rowsFrom k p h' := by
  ext x
  rw [mem_rowsFrom, mem_rowsFrom]
  constructor
  · rintro ⟨a, b⟩
    exact ⟨a, by rw [← e _ a.2]; exact b⟩
  · rintro ⟨a, b⟩
    exact ⟨a, by rw [e _ a.2]; exact b⟩

theorem apply_hop (hf : o.Fits False) {ex : Prop} (hex : ex → o.Exact False) {fuel p k w : Nat}
    {h : Nat → Nat} {Y : Nat → Nat → Mat R} {t : Nat → Dense R} {col col' : Nat → Mat R} {trans : Bool}
    (hY : ∀ i, k ≤ i → i < p → (Y i k).WF) (hcol : ColOk ex p h w col)
    (ha : applyBlockCol o fuel p (fun i => Y i k) (.dense (t k)) k trans col = .ok col') :
    ApplyPost (o := o) ex p (fun i => Y i k) (t k) k trans col col' ∧ ColOk ex p h w col' ∧
    (∀ i < p, (col i).SameShape (col' i)) ∧
    ∀ y < w, EqOn p h (colv col' y) (hop p h Y t trans k (colv col y)) := by
  have P := applyBlockCol_ok hf hex (Y := fun i => Y i k) hY (fun i _ hi => (hcol i hi).1) ha
  have hk := P.lt
  have sh : ∀ i < p, (col i).SameShape (col' i) := by
    intro i hi
    by_cases hki : k ≤ i
    · exact (P.good i hki hi).2
    · rw [P.other i (by omega)]
      exact SameShape.refl _
  refine ⟨P, ?_, sh, ?_⟩
  · intro i hi
    have d := (sh i hi).dims (hcol i hi).1.wf
    refine ⟨?_, by rw [d.1]; exact (hcol i hi).2.1, by rw [d.2]; exact (hcol i hi).2.2⟩
    by_cases hki : k ≤ i
    · exact (P.good i hki hi).1
    · rw [P.other i (by omega)]
      exact (hcol i hi).1
  · intro y hy x hx
    unfold hop
    have hc : rowsFrom k p (fun i => (col i).nRows) = rowsFrom k p h :=
      rowsFrom_congr (fun i hi => (hcol i hi).2.1)
    by_cases hki : k ≤ x.1
    · rw [if_pos hki]
      have := P.ent y (by rw [(hcol k hk).2.2]; exact hy) x (by
        rw [hc]
        rw [mem_rowsFrom] at hx ⊢
        omega)
      rw [this, hc, (hcol k hk).2.1]
    · rw [if_neg hki]
      unfold colv
      rw [P.other x.1 (by omega)]

/-- Applications one after the other. -/
def runCols (o : LrOps R) (fuel p : Nat) (Y : Nat → Nat → Mat R) (T : Nat → Mat R) (trans : Bool)
    (ks : List Nat) (col : Nat → Mat R) : Except Err (Nat → Mat R) :=
  ks.foldlM (fun c k => applyBlockCol o fuel p (fun i => Y i k) (T k) k trans c) col

theorem runCols_snoc {fuel p : Nat} {Y : Nat → Nat → Mat R} {T : Nat → Mat R} {trans : Bool}
    {ks : List Nat} {k : Nat} {col : Nat → Mat R} :
    runCols o fuel p Y T trans (ks ++ [k]) col =
      (runCols o fuel p Y T trans ks col >>= fun c =>
        applyBlockCol o fuel p (fun i => Y i k) (T k) k trans c) := by
  unfold runCols
  rw [List.foldlM_append]
  simp

theorem runCols_congr {fuel p : Nat} {Y Y' : Nat → Nat → Mat R} {T T' : Nat → Mat R} {trans : Bool}
    {ks : List Nat} {col : Nat → Mat R} (e : ∀ k ∈ ks, (∀ i, Y i k = Y' i k) ∧ T k = T' k) :
    runCols o fuel p Y T trans ks col = runCols o fuel p Y' T' trans ks col := by
  induction ks generalizing col with
  | nil => rfl
  | cons k ks ih =>
    unfold runCols at ih ⊢
    rw [List.foldlM_cons, List.foldlM_cons]
    have e1 := e k List.mem_cons_self
    have : (fun i => Y i k) = (fun i => Y' i k) := funext e1.1
    rw [this, e1.2]
    congr 1
    funext c
    exact ih (fun k' hk' => e k' (List.mem_cons_of_mem _ hk'))

theorem runCols_ok (hf : o.Fits False) {ex : Prop} (hex : ex → o.Exact False) {fuel p w : Nat}
    {h : Nat → Nat} {Y : Nat → Nat → Mat R} {t : Nat → Dense R} {T : Nat → Mat R} {trans : Bool}
    {ks : List Nat}
    (hY : ∀ k ∈ ks, ∀ i, k ≤ i → i < p → (Y i k).WF) (hT : ∀ k ∈ ks, T k = .dense (t k))
    {col col' : Nat → Mat R} (hcol : ColOk ex p h w col)
    (ha : runCols o fuel p Y T trans ks col = .ok col') :
    ColOk ex p h w col' ∧ (∀ i < p, (col i).SameShape (col' i)) ∧
    (∀ k ∈ ks, k < p ∧ ∃ y, Y k k = .dense y ∧ y.rows = h k ∧ y.cols = h k) ∧
    ∀ y < w, EqOn p h (colv col' y) (hops p h Y t trans ks (colv col y)) := by
  induction ks generalizing col with
  | nil =>
    cases Except.ok.inj ha
    exact ⟨hcol, fun i _ => SameShape.refl _, by simp, fun y _ x _ => rfl⟩
  | cons k ks ih =>
    unfold runCols at ih ha
    rw [List.foldlM_cons, except_bind_eq_ok] at ha
    obtain ⟨c, hc, ha⟩ := ha
    rw [hT k List.mem_cons_self] at hc
    obtain ⟨P, ok, sh, en⟩ := apply_hop hf hex (hY k List.mem_cons_self) hcol hc
    obtain ⟨ok', sh', dg, en'⟩ := ih (fun k' hk' => hY k' (List.mem_cons_of_mem _ hk'))
      (fun k' hk' => hT k' (List.mem_cons_of_mem _ hk')) ok ha
    refine ⟨ok', fun i hi => (sh i hi).trans (sh' i hi), ?_, ?_⟩
    · intro k' hk'
      rcases List.mem_cons.1 hk' with rfl | hk'
      · obtain ⟨y, e1, e2, e3⟩ := P.diag
        have : (col k').nRows = h k' := (hcol k' P.lt).2.1
        exact ⟨P.lt, y, e1, by rw [e3, this], by rw [← e2, e3, this]⟩
      · exact dg k' hk'
    · intro y hy
      exact (en' y hy).trans (hops_congr (en y hy))

/-! ### the drivers, column by column -/

theorem colLoop {n k : Nat} {body : Nat → (Nat → Nat → Mat R) → Except Err (Nat → Nat → Mat R)}
    {f : Nat → (Nat → Mat R) → Except Err (Nat → Mat R)} {A A' : Nat → Nat → Mat R}
    (hb : ∀ u A B, body u A = .ok B → ∃ c, f (k + u) (fun i => A i (k + u)) = .ok c ∧
      B = putCol A (k + u) c)
    (h : loop n body A = .ok A') :
    ∀ j, (k ≤ j → j < k + n → f j (fun i => A i j) = .ok (fun i => A' i j)) ∧
      (¬ (k ≤ j ∧ j < k + n) → (fun i => A' i j) = (fun i => A i j)) := by
  refine loop_inv (fun u B => ∀ j, (k ≤ j → j < k + u → f j (fun i => A i j) = .ok (fun i => B i j)) ∧
      (¬ (k ≤ j ∧ j < k + u) → (fun i => B i j) = (fun i => A i j))) ?_ ?_ h
  · intro j
    exact ⟨fun _ _ => by omega, fun _ => rfl⟩
  · intro u hu B C hI hC j
    obtain ⟨c, hc, rfl⟩ := hb u B C hC
    by_cases hj : j = k + u
    · subst hj
      have e : (fun i => putCol B (k + u) c i (k + u)) = c := by funext i; simp [putCol]
      rw [e]
      refine ⟨fun _ _ => ?_, fun hn => absurd (And.intro (by omega) (by omega)) hn⟩
      rw [← (hI (k + u)).2 (by omega)]
      exact hc
    · have e : (fun i => putCol B (k + u) c i j) = fun i => B i j := by
        funext i; simp [putCol, hj]
      rw [e]
      exact ⟨fun h1 h2 => (hI j).1 h1 (by omega), fun hn => (hI j).2 (by omega)⟩

theorem leftMulBlockedStep_cols {fuel p q tr tc m n k : Nat} {Y T C C' : Nat → Nat → Mat R}
    {trans : Bool} (h : leftMulBlockedStep o fuel p q Y tr tc T m n trans k C = .ok C') :
    ∀ j, (k ≤ j → j < q → j < n ∧ m = p ∧
        applyBlockCol o fuel p (fun i => Y i k) (T k 0) k trans (fun i => C i j) =
          .ok (fun i => C' i j)) ∧
      (¬ (k ≤ j ∧ j < q) → (fun i => C' i j) = (fun i => C i j)) := by
  have key := colLoop (n := q - k) (k := k) (f := fun j c => do
      assertM (decide (m = p))
      assertM (decide (j < n))
      applyBlockCol o fuel p (fun i => Y i k) (T k 0) k trans c) (by
    intro u A B hB
    simp only [except_bind_eq_ok, assertM_eq_ok, decide_eq_true_eq, blockAt] at hB ⊢
    obtain ⟨_, h1, _, h2, t, ⟨_, -, _, -, ht⟩, c, hc, hB⟩ := hB
    cases Except.ok.inj ht
    exact ⟨c, ⟨⟨⟩, h1, ⟨⟩, h2, hc⟩, (Except.ok.inj hB).symm⟩) h
  intro j
  refine ⟨fun h1 h2 => ?_, fun hn => (key j).2 (by omega)⟩
  have := (key j).1 h1 (by omega)
  simp only [except_bind_eq_ok, assertM_eq_ok, decide_eq_true_eq] at this
  obtain ⟨_, h3, _, h4, h5⟩ := this
  exact ⟨h4, h3, h5⟩

theorem leftMulBlocked_true_cols {fuel p q tr tc m n : Nat} {Y T C C' : Nat → Nat → Mat R}
    (h : leftMulBlocked o fuel p q Y tr tc T m n C true = .ok C') :
    ∀ j, (j < q → j < n ∧ m = p ∧ runCols o fuel p Y (fun k => T k 0) true (List.range (j + 1))
        (fun i => C i j) = .ok (fun i => C' i j)) ∧
      (q ≤ j → (fun i => C' i j) = (fun i => C i j)) := by
  simp only [leftMulBlocked, if_true] at h
  have key := loop_inv (fun s D => ∀ j, (j < q → (s ≠ 0 → (j < n ∨ s ≤ j) ∧ (m = p ∨ q ≤ j)) ∧
      (s ≤ j → runCols o fuel p Y (fun k => T k 0) true (List.range s) (fun i => C i j) =
        .ok (fun i => D i j)) ∧
      (j < s → j < n ∧ m = p ∧ runCols o fuel p Y (fun k => T k 0) true (List.range (j + 1))
        (fun i => C i j) = .ok (fun i => D i j))) ∧
      (q ≤ j → (fun i => D i j) = (fun i => C i j))) (by
    intro j
    exact ⟨fun _ => ⟨fun h => absurd rfl h, fun _ => rfl, fun h => by omega⟩, fun _ => rfl⟩) (by
    intro s hs D E hI hE j
    have hc := leftMulBlockedStep_cols hE j
    refine ⟨fun hj => ?_, fun hj => by rw [hc.2 (by omega)]; exact (hI j).2 hj⟩
    obtain ⟨-, i2, i3⟩ := (hI j).1 hj
    have run : s ≤ j → j < n ∧ m = p ∧ runCols o fuel p Y (fun k => T k 0) true (List.range (s + 1))
        (fun i => C i j) = .ok (fun i => E i j) := by
      intro hsj
      obtain ⟨c1, c2, c3⟩ := hc.1 hsj hj
      refine ⟨c1, c2, ?_⟩
      rw [List.range_succ, runCols_snoc, i2 hsj, except_bind_ok]
      exact c3
    refine ⟨fun _ => ?_, fun hsj => (run (by omega)).2.2, fun hsj => ?_⟩
    · by_cases hsj : s ≤ j
      · exact ⟨Or.inl (run hsj).1, Or.inl (run hsj).2.1⟩
      · exact ⟨Or.inl (i3 (by omega)).1, Or.inl (i3 (by omega)).2.1⟩
    · by_cases hsj' : j < s
      · rw [hc.2 (by omega)]
        exact i3 hsj'
      · have : j = s := by omega
        subst this
        exact run (le_refl _)) h
  intro j
  exact ⟨fun hj => ((key j).1 hj).2.2 hj, (key j).2⟩

theorem leftMulBlocked_false_cols {fuel p q tr tc m n : Nat} {Y T C C' : Nat → Nat → Mat R}
    (h : leftMulBlocked o fuel p q Y tr tc T m n C false = .ok C') :
    ∀ j, (j < q → j < n ∧ m = p ∧ runCols o fuel p Y (fun k => T k 0) false
        (List.range (j + 1)).reverse (fun i => C i j) = .ok (fun i => C' i j)) ∧
      (q ≤ j → (fun i => C' i j) = (fun i => C i j)) := by
  simp only [leftMulBlocked, Bool.false_eq_true, if_false] at h
  -- `desc s j`: the indices `j, j-1, ..., q - s`
  have key := loop_inv (fun s D => ∀ j, (j < q →
      (j < q - s → (fun i => D i j) = (fun i => C i j)) ∧
      (q - s ≤ j → j < n ∧ m = p ∧ runCols o fuel p Y (fun k => T k 0) false
        ((List.range (j + 1 - (q - s))).map (fun a => q - s + a)).reverse (fun i => C i j) =
        .ok (fun i => D i j))) ∧
      (q ≤ j → (fun i => D i j) = (fun i => C i j))) (by
    intro j
    exact ⟨fun hj => ⟨fun _ => rfl, fun h => by omega⟩, fun _ => rfl⟩) (by
    intro s hs D E hI hE j
    have hc := leftMulBlockedStep_cols hE j
    refine ⟨fun hj => ?_, fun hj => by rw [hc.2 (by omega)]; exact (hI j).2 hj⟩
    obtain ⟨i1, i2⟩ := (hI j).1 hj
    refine ⟨fun hlt => by rw [hc.2 (by omega)]; exact i1 (by omega), fun hle => ?_⟩
    obtain ⟨c1, c2, c3⟩ := hc.1 (by omega) hj
    refine ⟨c1, c2, ?_⟩
    have e : (List.range (j + 1 - (q - (s + 1)))).map (fun a => q - (s + 1) + a) =
        (q - (s + 1)) :: (List.range (j + 1 - (q - s))).map (fun a => q - s + a) := by
      rw [show j + 1 - (q - (s + 1)) = (j + 1 - (q - s)) + 1 by omega, List.range_succ_eq_map,
        List.map_cons, List.map_map]
      congr 1
      refine List.map_congr_left (fun a _ => ?_)
      simp only [Function.comp_apply]
      omega
    rw [e, List.reverse_cons, runCols_snoc]
    have hk : q - 1 - s = q - (s + 1) := by omega
    by_cases hjs : j < q - s
    · have : j + 1 - (q - s) = 0 := by omega
      rw [this]
      have hnil : runCols o fuel p Y (fun k => T k 0) false
        ((List.range 0).map (fun a => q - s + a)).reverse (fun i => C i j) = .ok (fun i => C i j) := rfl
      rw [hnil, except_bind_ok, ← hk, ← i1 hjs]
      exact c3
    · rw [(i2 (by omega)).2.2, except_bind_ok, ← hk]
      exact c3) h
  intro j
  refine ⟨fun hj => ?_, (key j).2⟩
  have := ((key j).1 hj).2 (by omega)
  simpa using this

/-- The run of `blocked_householder_blr_qr` on one block column. -/
theorem blockedQr_cols {K : QrKernels R} {fuel p q tr tc : Nat} {A A' T T' : Nat → Nat → Mat R}
    (h : blockedQr K o fuel p q A tr tc T = .ok (A', T')) :
    (tr = q ∧ tc = 1) ∧ ∃ t : Nat → Dense R, ∀ j < q, T' j 0 = .dense (t j) ∧
      ∃ c, runCols o fuel p A' (fun k => T' k 0) true (List.range j) (fun i => A i j) = .ok c ∧
        triangularizeCol K p j c = .ok (fun i => A' i j, t j) := by
  simp only [blockedQr, except_bind_eq_ok, assertM_eq_ok, decide_eq_true_eq] at h
  obtain ⟨_, h1, _, h2, h⟩ := h
  refine ⟨⟨h1, h2⟩, ?_⟩
  have key := loop_inv (fun s (st : (Nat → Nat → Mat R) × (Nat → Nat → Mat R)) =>
      ∃ t : Nat → Dense R, (∀ j < s, st.2 j 0 = .dense (t j) ∧
        ∃ c, runCols o fuel p st.1 (fun k => st.2 k 0) true (List.range j) (fun i => A i j) = .ok c ∧
          triangularizeCol K p j c = .ok (fun i => st.1 i j, t j)) ∧
      ∀ j, s ≤ j → j < q → runCols o fuel p st.1 (fun k => st.2 k 0) true (List.range s)
        (fun i => A i j) = .ok (fun i => st.1 i j)) (by
    exact ⟨fun _ => ⟨0, 0, fun _ _ => 0⟩, by intro j hj; omega, fun j _ _ => rfl⟩) (by
    rintro s hs ⟨B, S⟩ st' ⟨t, i1, i2⟩ hst
    simp only [blockedStep, except_bind_eq_ok] at hst
    obtain ⟨x, hx, B', hB', hst⟩ := hst
    cases Except.ok.inj hst
    have hc := colLoop (n := q - (s + 1)) (k := s + 1)
      (f := fun j c => applyBlockCol o fuel p x.1 (.dense x.2) s true c) (by
        intro u C D hD
        simp only [except_bind_eq_ok] at hD
        obtain ⟨c, hc, hD⟩ := hD
        exact ⟨c, hc, (Except.ok.inj hD).symm⟩) hB'
    -- earlier columns are not touched any more
    have old : ∀ j < s, (fun i => B' i j) = fun i => B i j := by
      intro j hj
      rw [(hc j).2 (by omega)]
      funext i
      simp [putCol, show j ≠ s by omega]
    have cur : (fun i => B' i s) = x.1 := by
      rw [(hc s).2 (by omega)]
      funext i
      simp [putCol]
    have cong : ∀ (l : Nat), l ≤ s → ∀ c, runCols o fuel p B' (fun k => putBlk S s 0 (.dense x.2) k 0) true
        (List.range l) c = runCols o fuel p B (fun k => S k 0) true (List.range l) c := by
      intro l hl c
      refine runCols_congr (fun k hk => ?_)
      have hk := List.mem_range.1 hk
      exact ⟨fun i => congrFun (old k (by omega)) i, by simp [putBlk, show k ≠ s by omega]⟩
    refine ⟨fun j => if j = s then x.2 else t j, ?_, ?_⟩
    · intro j hj
      simp only
      by_cases hjs : j = s
      · subst hjs
        rw [if_pos rfl]
        refine ⟨by simp [putBlk], _, (cong j (le_refl _) _).trans (i2 j (le_refl _) hs), ?_⟩
        rw [cur]
        exact hx
      · rw [if_neg hjs]
        obtain ⟨e1, c, e2, e3⟩ := i1 j (by omega)
        refine ⟨by simp only [putBlk, hjs, false_and, if_false]; exact e1, c, ?_, ?_⟩
        · rw [cong j (by omega)]
          exact e2
        · rw [old j (by omega)]
          exact e3
    · intro j h1 h2
      simp only at h1 ⊢
      rw [List.range_succ, runCols_snoc, cong s (le_refl _), i2 j (by omega) h2, except_bind_ok, cur]
      have e1 : putBlk S s 0 (.dense x.2) s 0 = Mat.dense x.2 := by simp [putBlk]
      rw [e1]
      have := (hc j).1 (by omega) (by omega)
      have e2 : (fun i => putCol B s x.1 i j) = fun i => B i j := by
        funext i
        simp [putCol, show j ≠ s by omega]
      rw [e2] at this
      exact this) h
  obtain ⟨t, i1, -⟩ := key
  exact ⟨t, i1⟩

/-! ### the reflectors the factorization returns -/

theorem runCols_orth (hf : o.Fits False) {ex : Prop} (hex : ex → o.Exact False) (ho : o.LeftOrth)
    {fuel p w : Nat} {h : Nat → Nat} {Y : Nat → Nat → Mat R} {t : Nat → Dense R} {T : Nat → Mat R}
    {trans : Bool} {ks : List Nat}
    (hY : ∀ k ∈ ks, ∀ i, k ≤ i → i < p → (Y i k).WF ∧ (Y i k).IsTile)
    (hT : ∀ k ∈ ks, T k = .dense (t k))
    {col col' : Nat → Mat R} (hcol : ColOk ex p h w col)
    (ha : runCols o fuel p Y T trans ks col = .ok col') {i : Nat} (hi : i < p) (hik : ∀ k ∈ ks, k < i)
    (hl : (col i).LrO) : (col' i).LrO := by
  induction ks generalizing col with
  | nil =>
    cases Except.ok.inj ha
    exact hl
  | cons k ks ih =>
    unfold runCols at ih ha
    rw [List.foldlM_cons, except_bind_eq_ok] at ha
    obtain ⟨c, hc, ha⟩ := ha
    rw [hT k List.mem_cons_self] at hc
    obtain ⟨P, ok, -, -⟩ := apply_hop hf hex
      (fun i h1 h2 => (hY k List.mem_cons_self i h1 h2).1) hcol hc
    have hk := hik k List.mem_cons_self
    refine ih (fun k' hk' => hY k' (List.mem_cons_of_mem _ hk'))
      (fun k' hk' => hT k' (List.mem_cons_of_mem _ hk')) ok ha
      (fun k' hk' => hik k' (List.mem_cons_of_mem _ hk')) ?_
    exact P.orth ho i hk hi (hY k List.mem_cons_self i (by omega) hi).2

theorem QrInput.col {p q : Nat} {A : Nat → Nat → Mat R} (hA : QrInput o p q A)
    {j : Nat} (hj : j < q) : ColOk (o.Exact False ∧ o.LeftOrth) p (fun i => (A i 0).nRows)
      (A 0 j).nCols (fun i => A i j) := by
  intro i hi
  have hw := hA.wf
  simp only [WF] at hw
  obtain ⟨h1, h3, h4⟩ := hw.2.2 i hi j hj
  have h2 := hA.sqr i hi j hj
  refine ⟨⟨h1, h2, hA.fine.imp_left (fun hd => ?_)⟩, h3, h4⟩
  obtain ⟨d, hd⟩ := hd i hi j hj
  simp only [hd]
  intro _ _ _ _
  trivial

/-- The stored reflectors and the triangular factor. -/
structure QrPost (p q : Nat) (h w : Nat → Nat) (A A' : Nat → Nat → Mat R) (t : Nat → Dense R)
    (j : Nat) : Prop where
  col : ∀ i < p, (A' i j).WF ∧ (A' i j).Square ∧ (A i j).SameShape (A' i j)
  tile : ∀ i, j ≤ i → i < p → (A' i j).IsTile
  fac : (∃ y, A' j j = .dense y ∧ y.rows = h j ∧ y.cols = h j) →
    ReflOrth (rowsFrom j p h) (h j) (refv j (fun i => A' i j)) ((t j).tri .upper false) ∧
    ∀ y < w j, EqOn p h (fun x => if j < x.1 ∨ (x.1 = j ∧ y < x.2) then 0 else (A' x.1 j).entry x.2 y)
    (hops p h A' t true (List.range (j + 1)) (colv (fun i => A i j) y))

theorem blockedQr_post {K : QrKernels R} (hK : QrContract K) (hf : o.Fits False) {fuel p q tr tc : Nat}
    {A A' T T' : Nat → Nat → Mat R} (hA : QrInput o p q A)
    (hq : blockedQr K o fuel p q A tr tc T = .ok (A', T')) :
    ∃ t : Nat → Dense R, ∀ j < q, T' j 0 = .dense (t j) ∧
      QrPost p q (fun i => (A i 0).nRows) (fun j => (A 0 j).nCols) A A' t j := by
  set h : Nat → Nat := fun i => (A i 0).nRows with hh
  set w : Nat → Nat := fun j => (A 0 j).nCols with hww
  obtain ⟨-, t, ht⟩ := blockedQr_cols hq
  refine ⟨t, fun j hj => ⟨(ht j hj).1, ?_⟩⟩
  induction j using Nat.strong_induction_on with
  | _ j ih =>
  obtain ⟨-, c, hc, htri⟩ := ht j hj
  have hcol := hA.col hj
  have hT : ∀ k ∈ List.range j, (fun k => T' k 0) k = .dense (t k) := by
    intro k hk
    exact (ht k (by have := List.mem_range.1 hk; omega)).1
  have hY : ∀ k ∈ List.range j, ∀ i, k ≤ i → i < p → (A' i k).WF ∧ (A' i k).IsTile := by
    intro k hk i h1 h2
    have hk := List.mem_range.1 hk
    have P := ih k hk (by omega)
    exact ⟨(P.col i h2).1, P.tile i h1 h2⟩
  obtain ⟨ok, sh, -, en⟩ := runCols_ok hf (fun h => h.1) (fun k hk i h1 h2 => (hY k hk i h1 h2).1) hT
    hcol hc
  have P : TriPost (o.Exact False ∧ o.LeftOrth) p j c (fun i => A' i j) (t j) :=
    triangularizeCol_ok hK (fun i h1 h2 => ⟨(ok i h2).1.wf, (ok i h2).1.sqr, by
      rw [(ok i h2).2.2, (ok j (by omega)).2.2]⟩) htri
  have hjp := P.lt
  have tile : ∀ i, j ≤ i → i < p → (c i).IsTile := P.tile
  have lro : ∀ i, j ≤ i → i < p → (∃ d, c i = .dense d) ∨ (j < i → (c i).LrO) := by
    intro i h1 h2
    rcases hA.fine with hdn | ⟨-, ho⟩
    · left
      obtain ⟨d, hd'⟩ := hdn i h2 j hj
      have := sh i h2
      simp only [hd'] at this
      generalize c i = ci at this
      cases ci with
      | dense d => exact ⟨d, rfl⟩
      | lowRank => exact this.elim
      | hier => exact this.elim
      | empty => exact this.elim
    · right
      intro hlt
      exact runCols_orth hf (fun h => h.1) ho hY hT hcol hc h2
        (fun k hk => by have := List.mem_range.1 hk; omega) (hA.orth i h2 j hlt hj)
  have dsh : ∀ i < p, (c i).SameShape (A' i j) := by
    intro i hi
    by_cases hji : j ≤ i
    · exact (P.good i hji hi).2.1
    · rw [show A' i j = c i from P.other i (by omega)]
      exact SameShape.refl _
  have gd : ∀ i < p, Good (o.Exact False ∧ o.LeftOrth) (A' i j) := by
    intro i hi
    by_cases hji : j ≤ i
    · exact (P.good i hji hi).1 (ok i hi).1
    · rw [show A' i j = c i from P.other i (by omega)]
      exact (ok i hi).1
  refine ⟨fun i hi => ⟨(gd i hi).wf, (gd i hi).sqr, (sh i hi).trans (dsh i hi)⟩,
    fun i hi hip => (tile i hi hip).of_shape (dsh i hip), ?_⟩
  rintro ⟨y0, hy0, yr, yc⟩
  have cj : ∃ d, c j = .dense d := by
    have := dsh j hjp
    rw [hy0] at this
    generalize c j = cj at this
    cases cj with
    | dense d => exact ⟨d, rfl⟩
    | lowRank => exact this.elim
    | hier => exact this.elim
    | empty => exact this.elim
  have dj := (dsh j hjp).dims (ok j hjp).1.wf
  rw [hy0] at dj
  have nc : (c j).nCols = h j := by
    rw [← dj.2]
    exact yc
  have nr : (c j).nRows = h j := (ok j hjp).2.1
  obtain ⟨h1, h2⟩ := P.orth (by rw [nc, nr]) cj (by
    intro i hi hip
    by_cases hij : i = j
    · subst hij
      obtain ⟨d, hd⟩ := cj
      rw [hd]
      trivial
    · have tl := tile i hi hip
      rcases lro i hi hip with ⟨d, hd⟩ | hl
      · rw [hd]
        trivial
      · generalize hci : c i = ci at tl
        cases ci with
        | dense d => trivial
        | lowRank l => exact hl (by omega) l hci
        | hier => exact tl.elim
        | empty => exact tl.elim)
  have hrows : rowsFrom j p (fun i => (c i).nRows) = rowsFrom j p h :=
    rowsFrom_congr (fun i hi => (ok i hi).2.1)
  rw [hrows, nc] at h1 h2
  have wj : w j = h j := (ok j hjp).2.2.symm.trans nc
  refine ⟨h1, ?_⟩
  intro y hy
  rw [List.range_succ, hops_append]
  refine EqOn.trans ?_ (hop_congr (en y hy))
  intro x hx
  unfold hop
  by_cases hjx : j ≤ x.1
  · rw [if_pos hjx]
    have hxj : x ∈ rowsFrom j p h := by
      rw [mem_rowsFrom] at hx ⊢
      omega
    have := h2 y (by omega) x hxj
    have e : opFun true ((t j).tri .upper false) = Verif.tr ((t j).tri .upper false) := rfl
    rw [e, this]
    by_cases hxj : x.1 = j
    · rw [hxj]
      by_cases hle : x.2 ≤ y
      · simp only [hle, and_self, if_true]
        rw [if_neg (by omega), hxj]
      · simp only [hle, and_false, if_false]
        rw [if_pos (by omega)]
    · rw [if_neg (by tauto)]
      exact if_pos (Or.inl (by omega))
  · rw [if_neg hjx]
    refine (if_neg (by omega)).trans ?_
    unfold colv
    rw [show A' x.1 j = c x.1 from P.other x.1 (by omega)]

/-! ### multiplication with the reflectors -/

/-- The indices of the reflectors for block column `j`, in the order of application. -/
def order (trans : Bool) (j : Nat) : List Nat :=
  if trans then List.range (j + 1) else (List.range (j + 1)).reverse

theorem order_not (trans : Bool) (j : Nat) : order (!trans) j = (order trans j).reverse := by
  cases trans <;> simp [order]

theorem mem_order {trans : Bool} {j k : Nat} : k ∈ order trans j ↔ k ≤ j := by
  cases trans <;> simp [order]

theorem leftMulBlocked_cols {fuel p q tr tc m n : Nat} {Y T C C' : Nat → Nat → Mat R} {trans : Bool}
    (h : leftMulBlocked o fuel p q Y tr tc T m n C trans = .ok C') :
    ∀ j, (j < q → j < n ∧ m = p ∧ runCols o fuel p Y (fun k => T k 0) trans (order trans j)
        (fun i => C i j) = .ok (fun i => C' i j)) ∧
      (q ≤ j → (fun i => C' i j) = (fun i => C i j)) := by
  cases trans with
  | true => exact leftMulBlocked_true_cols h
  | false => exact leftMulBlocked_false_cols h

/-- The product with the reflectors, for the first `q` block columns of `C`. -/
theorem leftMulBlocked_ok (hf : o.Fits False) {ex : Prop} (hex : ex → o.Exact False)
    {fuel p q tr tc m n : Nat} {h w : Nat → Nat} {Y T C C' : Nat → Nat → Mat R} {t : Nat → Dense R}
    {trans : Bool} (hY : ∀ k < q, ∀ i, k ≤ i → i < p → (Y i k).WF) (hT : ∀ k < q, T k 0 = .dense (t k))
    (hC : ∀ j < n, ColOk ex p h (w j) (fun i => C i j))
    (hm : leftMulBlocked o fuel p q Y tr tc T m n C trans = .ok C') :
    (0 < q → q ≤ n ∧ m = p) ∧ (∀ j < n, ColOk ex p h (w j) (fun i => C' i j)) ∧
    (∀ j < n, ∀ i < p, (C i j).SameShape (C' i j)) ∧
    (∀ k < q, k < p ∧ ∃ y, Y k k = .dense y ∧ y.rows = h k ∧ y.cols = h k) ∧
    (∀ j < q, ∀ y < w j, EqOn p h (colv (fun i => C' i j) y)
      (hops p h Y t trans (order trans j) (colv (fun i => C i j) y))) ∧
    ∀ j, q ≤ j → ∀ i, C' i j = C i j := by
  have cols := leftMulBlocked_cols hm
  have main : ∀ j < q, j < n ∧ m = p ∧ _ := fun j hj => by
    obtain ⟨h1, h2, h3⟩ := (cols j).1 hj
    exact ⟨h1, h2, runCols_ok hf hex (t := t) (h := h) (w := w j)
      (fun k hk i hki hi => hY k (by have := mem_order.1 hk; omega) i hki hi)
      (fun k hk => hT k (by have := mem_order.1 hk; omega)) (hC j h1) h3⟩
  refine ⟨fun hq => ⟨?_, (main 0 hq).2.1⟩, fun j hj => ?_, fun j hj => ?_, fun k hk => ?_, fun j hj => ?_,
    fun j hj => ?_⟩
  · have := (main (q - 1) (by omega)).1
    omega
  · by_cases hjq : j < q
    · exact (main j hjq).2.2.1
    · rw [(cols j).2 (by omega)]
      exact hC j hj
  · by_cases hjq : j < q
    · exact (main j hjq).2.2.2.1
    · intro i _
      have : C' i j = C i j := congrFun ((cols j).2 (by omega)) i
      rw [this]
      exact SameShape.refl _
  · exact (main k hk).2.2.2.2.1 k (mem_order.2 (le_refl _))
  · exact (main j hj).2.2.2.2.2
  · exact fun i => congrFun ((cols j).2 hj) i

/-- Entries of a matrix from its block columns. -/
theorem sameEntries_of_cols {p q : Nat} {A B : Nat → Nat → Mat R} (hA : (Mat.hier p q A).WF)
    (hB : ∀ i < p, ∀ j < q, (B i j).nRows = (A i j).nRows ∧ (B i j).nCols = (A i j).nCols)
    (he : ∀ i < p, ∀ j < q, ∀ r < (A i j).nRows, ∀ s < (A i j).nCols,
      (B i j).entry r s = (A i j).entry r s) : (Mat.hier p q B).SameEntries (Mat.hier p q A) := by
  have hA' := hA
  simp only [WF] at hA'
  obtain ⟨hp, hq, hw⟩ := hA'
  have := entry_hier_congr (F := id) hp hq (fun i hi j hj => (hw i hi j hj).2) hB
    (fun i hi j hj r hr s hs => he i hi j hj r hr s hs)
  have e1 : (Mat.hier p q B).nRows = (Mat.hier p q A).nRows := by
    rw [nRows_hier, nRows_hier]
    exact psum_congr (fun i hi => (hB i hi 0 hq).1)
  have e2 : (Mat.hier p q B).nCols = (Mat.hier p q A).nCols := by
    rw [nCols_hier, nCols_hier]
    exact psum_congr (fun j hj => (hB 0 hp j hj).2)
  refine ⟨e1, e2, fun i hi j hj => ?_⟩
  exact this.2.2 i (by rw [← e1]; exact hi) j (by rw [← e2]; exact hj)

/-- Blocks of the triangular factor. -/
theorem zeroLower_blocks {p q : Nat} {Y Rb : Nat → Nat → Mat R}
    (h : (Mat.hier p q Y).zeroLower = .ok (.hier p q Rb)) {i j : Nat} (hi : i < p) (hj : j < q)
    (hw : (Y i j).WF) (hs : (Y i j).Square) (ht : i ≠ j → (Y i j).IsTile ∨ i < j)
    (hd : i = j → ∃ d, Y i j = .dense d) :
    (Y i j).SameShape (Rb i j) ∧ (Rb i j).WF ∧ (Rb i j).Square ∧
    ∀ r < (Y i j).nRows, ∀ s < (Y i j).nCols, (Rb i j).entry r s =
      if j < i ∨ (i = j ∧ s < r) then 0 else (Y i j).entry r s := by
  simp only [zeroLower, except_bind_eq_ok] at h
  obtain ⟨g, hg, h⟩ := h
  injection h with h
  injection h with _ _ h
  subst h
  have hb := collect2_ok hg i hi j hj
  by_cases hij : i = j
  · subst hij
    obtain ⟨d, hd⟩ := hd rfl
    rw [hd] at hb
    simp only [if_true, zeroLower] at hb
    rw [← Except.ok.inj hb, hd]
    refine ⟨⟨rfl, rfl⟩, trivial, trivial, fun r _ s _ => ?_⟩
    simp only [entry, lt_irrefl, false_or, true_and]
  · rw [if_neg (fun e => hij e.symm)] at hb
    by_cases hlt : j < i
    · rw [if_pos hlt] at hb
      have tl : (Y i j).IsTile := (ht hij).resolve_right (by omega)
      obtain ⟨s1, f1⟩ := zeroAll_fit (Fit.of hw hs) hb
      obtain ⟨Z, hZ, -, -, -, z⟩ := zeroAll_ok (Y i j) hw (by
        generalize Y i j = M at tl
        cases M <;> first | exact tl.elim | trivial)
      rw [hb] at hZ
      cases Except.ok.inj hZ
      obtain ⟨w1, q1⟩ := Fit.wf hw s1 f1
      refine ⟨s1, w1, q1, fun r hr s hs => ?_⟩
      rw [if_pos (Or.inl hlt)]
      exact z r hr s hs
    · rw [if_neg hlt] at hb
      rw [← Except.ok.inj hb]
      refine ⟨SameShape.refl _, hw, hs, fun r _ s _ => ?_⟩
      rw [if_neg (by omega)]

end Mat
end Verif
