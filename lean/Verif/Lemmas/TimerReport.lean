import Verif.Spec.TimerReport
import Verif.Spec.Morton
import Verif.Props.Timer
import Mathlib.Algebra.Order.BigOperators.Group.List
import Mathlib.Tactic.Linarith
import Mathlib.Tactic.Abel
import Mathlib.Data.List.Forall2

/-
Lemmas for the timing report (C64).
-/

namespace Verif

namespace Timing

section
variable {T : Type _} [AddCommGroup T]

theorem History.runs_nil (F : History T) : F.runs [] = [] := by
  induction F with
  | done => rfl
  | span n t0 t1 i r _ ih => simp [History.runs, ih]

theorem History.runs_parent (F : History T) : ∀ {p : List String} {e : String}, p ≠ [] → F.runs (p ++ [e]) ≠ [] →
    F.runs p ≠ [] := by
  induction F with
  | done => intro p e _ h; exact absurd rfl h
  | span n t0 t1 i r ihi ihr =>
    intro p e hp h
    cases p with
    | nil => exact absurd rfl hp
    | cons a p' =>
      by_cases ha : a = n
      · subst ha
        cases p' with
        | nil => simp [History.runs]
        | cons b p'' =>
          simp only [History.runs, List.cons_append, if_true, ne_eq, List.append_eq_nil_iff, not_and_or] at h ⊢
          rcases h with h | h
          · exact Or.inl (ihi (p := b :: p'') (by simp) h)
          · exact Or.inr (ihr (p := a :: b :: p'') (by simp) h)
      · simp only [History.runs, List.cons_append, if_neg ha, List.nil_append] at h ⊢
        exact ihr (p := a :: p') (by simp) h

end

section
variable {K : Type _} [AddCommGroup K] [LinearOrder K] [IsOrderedAddMonoid K]

omit [AddCommGroup K] [IsOrderedAddMonoid K] in
theorem History.Within.le {F : History K} : ∀ {lo hi : K}, F.Within lo hi → lo ≤ hi := by
  induction F with
  | done => intro lo hi h; exact h
  | span n t0 t1 i r ihi ihr =>
    intro lo hi h
    exact h.1.trans ((ihi h.2.1).trans (ihr h.2.2))

theorem History.Within.nonneg {F : History K} : ∀ {lo hi : K}, F.Within lo hi → ∀ p, ∀ x ∈ F.runs p, 0 ≤ x := by
  induction F with
  | done => intro lo hi _ p x hx; simp [History.runs] at hx
  | span n t0 t1 i r ihi ihr =>
    intro lo hi h p x hx
    cases p with
    | nil => rw [History.runs_nil] at hx; cases hx
    | cons a p' =>
      by_cases ha : a = n
      · cases p' with
        | nil =>
          simp only [History.runs, if_pos ha, List.mem_append, List.mem_singleton] at hx
          rcases hx with rfl | hx
          · exact sub_nonneg.2 h.2.1.le
          · exact ihr h.2.2 _ x hx
        | cons b p'' =>
          simp only [History.runs, if_pos ha, List.mem_append] at hx
          rcases hx with hx | hx
          · exact ihi h.2.1 _ x hx
          · exact ihr h.2.2 _ x hx
      · simp only [History.runs, if_neg ha, List.nil_append] at hx
        exact ihr h.2.2 _ x hx

omit [IsOrderedAddMonoid K] in
theorem sum_single {n : String} {v : K} (hv : 0 ≤ v) : ∀ {es : List String}, es.Nodup →
    (es.map (fun e => (if e = n then [v] else ([] : List K)).sum)).sum ≤ v := by
  intro es
  induction es with
  | nil => intro _; simpa using hv
  | cons e es ih =>
    intro h
    rw [List.nodup_cons] at h
    rw [List.map_cons, List.sum_cons]
    by_cases he : e = n
    · have hz : (es.map (fun e => (if e = n then [v] else ([] : List K)).sum)).sum = 0 := by
        apply List.sum_eq_zero
        intro x hx
        obtain ⟨a, ha, rfl⟩ := List.mem_map.1 hx
        have : a ≠ n := fun h' => h.1 (by rw [he, ← h']; exact ha)
        simp [this]
      rw [hz]
      simp [he]
    · simpa [he] using ih h.2

theorem History.Within.sum_top {F : History K} {es : List String} (hes : es.Nodup) : ∀ {lo hi : K}, F.Within lo hi →
    (es.map (fun e => (F.runs [e]).sum)).sum ≤ hi - lo := by
  induction F with
  | done =>
    intro lo hi h
    have : (es.map (fun e => ((History.done : History K).runs [e]).sum)).sum = 0 := by
      apply List.sum_eq_zero
      intro x hx
      obtain ⟨a, -, rfl⟩ := List.mem_map.1 hx
      rfl
    rw [this]
    exact sub_nonneg.2 h
  | span n t0 t1 i r _ ihr =>
    intro lo hi h
    simp only [History.runs, List.sum_append, List.sum_map_add]
    have h1 := sum_single (n := n) (sub_nonneg.2 h.2.1.le) hes
    have h2 := ihr h.2.2
    calc _ ≤ (t1 - t0) + (hi - t1) := add_le_add h1 h2
      _ = hi - t0 := by abel
      _ ≤ hi - lo := sub_le_sub_left h.1 hi

/-- The spans directly inside others take no more time than these. -/
theorem History.Within.sum_le {F : History K} {es : List String} (hes : es.Nodup) : ∀ {lo hi : K}, F.Within lo hi →
    ∀ p, p ≠ [] → (es.map (fun e => (F.runs (p ++ [e])).sum)).sum ≤ (F.runs p).sum := by
  induction F with
  | done =>
    intro lo hi _ p _
    apply le_of_eq
    apply List.sum_eq_zero
    intro x hx
    obtain ⟨a, -, rfl⟩ := List.mem_map.1 hx
    rfl
  | span n t0 t1 i r ihi ihr =>
    intro lo hi h p hp
    have h2 := ihr h.2.2 p hp
    cases p with
    | nil => exact absurd rfl hp
    | cons a p' =>
      by_cases ha : a = n
      · cases p' with
        | nil =>
          simp only [History.runs, List.cons_append, List.nil_append, if_pos ha, List.sum_append, List.sum_map_add]
          exact add_le_add (h.2.1.sum_top hes) h2
        | cons b p'' =>
          simp only [History.runs, List.cons_append, if_pos ha, List.sum_append, List.sum_map_add]
          exact add_le_add (ihi h.2.1 (b :: p'') (by simp)) h2
      · simpa only [History.runs, List.cons_append, if_neg ha, List.nil_append] using h2

end

section
variable {α β : Type _}

theorem concatM_map {f : α → Except Err (List β)} {g : α → β} : ∀ {l : List α}, (∀ a ∈ l, f a = .ok [g a]) →
    concatM f l = .ok (l.map g) := by
  intro l
  induction l with
  | nil => intro _; rfl
  | cons a l ih =>
    intro h
    rw [concatM, h a (by simp), except_bind_ok, ih (fun b hb => h b (by simp [hb])), except_bind_ok]
    rfl

theorem concatM_error {f : α → Except Err (List β)} {e : Err} : ∀ {l : List α},
    (∀ a ∈ l, (∃ x, f a = .ok x) ∨ f a = .error e) → (∃ a ∈ l, f a = .error e) → concatM f l = .error e := by
  intro l
  induction l with
  | nil => rintro _ ⟨a, ha, -⟩; cases ha
  | cons a l ih =>
    rintro h ⟨b, hb, hbe⟩
    rw [concatM]
    rcases h a (by simp) with ⟨x, hx⟩ | hx
    · have hbl : b ∈ l := by
        rcases List.mem_cons.1 hb with rfl | hb
        · rw [hx] at hbe; cases hbe
        · exact hb
      rw [hx, except_bind_ok, ih (fun c hc => h c (by simp [hc])) ⟨b, hbl, hbe⟩]
      rfl
    · rw [hx]
      rfl

end

theorem times_append {K : Type _} (a b : List (Line K)) : times (a ++ b) = times a ++ times b := by
  induction a with
  | nil => rfl
  | cons x a ih => cases x <;> simp [times, ih]

theorem percents_append {K : Type _} (a b : List (Line K)) : percents (a ++ b) = percents a ++ percents b := by
  induction a with
  | nil => rfl
  | cons x a ih => cases x <;> simp [percents, ih]

/-- Two timers inside the same one are not on the way to a common timer. -/
theorem prefix_unique {p q : List String} {x y : String} (h1 : p ++ [x] <+: q) (h2 : p ++ [y] <+: q) : x = y := by
  obtain ⟨u, hu⟩ := h1
  obtain ⟨v, hv⟩ := h2
  rw [← hv, List.append_assoc, List.append_assoc] at hu
  have := List.append_cancel_left hu
  simp at this
  exact this.1

theorem prefix_cases {p a r : List String} {x : String} (h : p ++ [x] <+: a) (hr : r <+: a) : r <+: p ∨ p ++ [x] <+: r := by
  rcases List.prefix_or_prefix_of_prefix hr h with h' | h'
  · rcases List.prefix_concat_iff.1 h' with rfl | h''
    · exact Or.inr (List.prefix_refl _)
    · exact Or.inl h''
  · exact Or.inr h'

/-- The times in a report on the timers of `R`. -/
structure Lists {K : Type _} [AddGroup K] [LE K] (F : History K) (R : List String → Prop) (lines : List (Line K))
    (order : List (List String)) : Prop where
  nodup : order.Nodup
  mem : ∀ q, q ∈ order ↔ R q
  times : times lines = order.map (fun q => (label q, (F.runs q).sum))
  sorted : order.Pairwise (fun a b => ¬ b <+: a ∧
    ∀ r x y, a = r ++ [x] → b = r ++ [y] → (F.runs b).sum ≤ (F.runs a).sum)
  together : ∀ a c b r, [a, c, b].Sublist order → r <+: a → r <+: b → r <+: c

/-- The percentages for the timers of `R`. -/
structure Shares {K : Type _} [Field K] [LinearOrder K] (F : History K) (R : List String → Prop) (lines : List (Line K))
    (inner : List (List String)) : Prop where
  nodup : inner.Nodup
  mem : ∀ q, q ∈ inner ↔ R q
  all : List.Forall₂ (IsShare F) inner (percents lines)

section
variable {K : Type _} [AddGroup K] [LE K] {F : History K}

/-- The timers at or below `p ++ [x]`, up to `d` levels deeper. -/
def Under (F : History K) (d : Nat) (p : List String) (q : List String) : Prop :=
  p <+: q ∧ q.length ≤ p.length + d ∧ F.runs q ≠ []

theorem Lists.nil {R : List String → Prop} (h : ∀ q, ¬ R q) : Lists F R [] [] where
  nodup := List.nodup_nil
  mem := fun q => by simp [h q]
  times := rfl
  sorted := List.Pairwise.nil
  together := fun a c b r h => by cases h

/-- The reports on two different timers inside `p`, one after the other. -/
theorem Lists.append {p : List String} {d : Nat} {x : String} {l : List String} {u v : List (Line K)}
    {o o' : List (List String)} (h : Lists F (Under F d (p ++ [x])) u o)
    (h' : Lists F (fun q => ∃ y ∈ l, Under F d (p ++ [y]) q) v o') (hx : x ∉ l)
    (hs : ∀ y ∈ l, (F.runs (p ++ [y])).sum ≤ (F.runs (p ++ [x])).sum) :
    Lists F (fun q => ∃ y ∈ x :: l, Under F d (p ++ [y]) q) (u ++ v) (o ++ o') := by
  have k : ∀ a ∈ o, p ++ [x] <+: a := fun a ha => ((h.mem a).1 ha).1
  have k' : ∀ b ∈ o', ∃ y ∈ l, p ++ [y] <+: b := fun b hb => by
    obtain ⟨y, hy, hb⟩ := (h'.mem b).1 hb
    exact ⟨y, hy, hb.1⟩
  have ne : ∀ y ∈ l, x ≠ y := fun y hy e => hx (e ▸ hy)
  have pp : ∀ c, c ∈ o ∨ c ∈ o' → p <+: c := by
    rintro c (hc | hc)
    · exact (List.prefix_append _ _).trans (k c hc)
    · obtain ⟨y, -, hy⟩ := k' c hc
      exact (List.prefix_append _ _).trans hy
  have cross : ∀ a ∈ o, ∀ b ∈ o', ∀ r, r <+: a → r <+: b → r <+: p := by
    intro a ha b hb r hra hrb
    obtain ⟨y, hy, hyb⟩ := k' b hb
    rcases prefix_cases (k a ha) hra with h1 | h1
    · exact h1
    · exact absurd (prefix_unique (h1.trans hrb) hyb) (ne y hy)
  refine ⟨?_, ?_, ?_, ?_, ?_⟩
  · refine List.nodup_append.2 ⟨h.nodup, h'.nodup, ?_⟩
    rintro a ha b hb rfl
    obtain ⟨y, hy, hyb⟩ := k' a hb
    exact ne y hy (prefix_unique (k a ha) hyb)
  · intro q
    rw [List.mem_append, h.mem, h'.mem]
    simp
  · rw [times_append, h.times, h'.times, List.map_append]
  · refine List.pairwise_append.2 ⟨h.sorted, h'.sorted, ?_⟩
    intro a ha b hb
    obtain ⟨y, hy, hyb⟩ := k' b hb
    refine ⟨fun hba => ne y hy (prefix_unique (k a ha) (hyb.trans hba)), ?_⟩
    intro r w z hr hz
    have h1 := cross a ha b hb r (hr ▸ List.prefix_append _ _) (hz ▸ List.prefix_append _ _)
    have l1 := h1.length_le
    have l2 := (k a ha).length_le
    have l3 := hyb.length_le
    rw [hr] at l2
    rw [hz] at l3
    simp only [List.length_append, List.length_singleton] at l2 l3
    have ea : p ++ [x] = a := (k a ha).eq_of_length (by rw [hr]; simp; omega)
    have eb : p ++ [y] = b := hyb.eq_of_length (by rw [hz]; simp; omega)
    rw [← ea, ← eb]
    exact hs y hy
  · intro a c b r hsub hra hrb
    obtain ⟨l1, l2, e, s1, s2⟩ := List.sublist_append_iff.1 hsub
    have hc : c ∈ o ∨ c ∈ o' := List.mem_append.1 (hsub.subset (by simp))
    match l1, e with
    | [], e => exact h'.together a c b r (by rw [e]; exact s2) hra hrb
    | [a'], e =>
      simp only [List.cons_append, List.nil_append, List.cons.injEq] at e
      obtain ⟨rfl, rfl⟩ := e
      exact (cross a (s1.subset (by simp)) b (s2.subset (by simp)) r hra hrb).trans (pp c hc)
    | [a', c'], e =>
      simp only [List.cons_append, List.nil_append, List.cons.injEq] at e
      obtain ⟨rfl, rfl, rfl⟩ := e
      exact (cross a (s1.subset (by simp)) b (s2.subset (by simp)) r hra hrb).trans (pp c hc)
    | a' :: c' :: b' :: t, e =>
      simp only [List.cons_append, List.cons.injEq] at e
      obtain ⟨rfl, rfl, rfl, e⟩ := e
      obtain ⟨rfl, rfl⟩ := List.append_eq_nil_iff.1 e.symm
      exact h.together a c b r s1 hra hrb

/-- The report on `p` itself before those on the timers inside. -/
theorem Lists.cons {p : List String} {d : Nat} {l : List String} {u w : List (Line K)} {o : List (List String)}
    (hp : F.runs p ≠ []) (h : Lists F (fun q => ∃ y ∈ l, Under F d (p ++ [y]) q) u o)
    (hl : ∀ q, (∃ y, Under F d (p ++ [y]) q) → ∃ y ∈ l, Under F d (p ++ [y]) q)
    (hw : Timing.times w = []) :
    Lists F (Under F (d + 1) p) (.time (label p) (F.runs p).sum :: (u ++ w)) (p :: o) := by
  have k : ∀ a ∈ o, ∃ y, p ++ [y] <+: a := fun a ha => by
    obtain ⟨y, -, hy⟩ := (h.mem a).1 ha
    exact ⟨y, hy.1⟩
  have np : ∀ a ∈ o, ¬ a <+: p := fun a ha hap => by
    obtain ⟨y, hy⟩ := k a ha
    have := (hy.trans hap).length_le
    simp at this
  have pp : ∀ c ∈ o, p <+: c := fun c hc => by
    obtain ⟨y, hy⟩ := k c hc
    exact (List.prefix_append _ _).trans hy
  refine ⟨List.nodup_cons.2 ⟨fun hm => np p hm (List.prefix_refl _), h.nodup⟩, ?_, ?_, ?_, ?_⟩
  · intro q
    rw [List.mem_cons, h.mem]
    constructor
    · rintro (rfl | ⟨y, -, h1, h2, h3⟩)
      · exact ⟨List.prefix_refl _, by omega, hp⟩
      · refine ⟨(List.prefix_append _ _).trans h1, ?_, h3⟩
        simp only [List.length_append, List.length_singleton] at h2
        omega
    · rintro ⟨⟨t, rfl⟩, h2, h3⟩
      cases t with
      | nil => left; simp
      | cons y t =>
        right
        refine hl _ ⟨y, ⟨t, by simp⟩, ?_, h3⟩
        simp only [List.length_append, List.length_cons, List.length_nil] at h2 ⊢
        omega
  · rw [Timing.times, times_append, hw, h.times]
    simp
  · refine List.pairwise_cons.2 ⟨fun b hb => ⟨np b hb, ?_⟩, h.sorted⟩
    intro r x y hr hy
    have l1 : p.length = b.length := by rw [hr, hy]; simp
    exact absurd (by rw [(pp b hb).eq_of_length l1]) (np b hb)
  · intro a c b r hsub hra hrb
    rw [List.sublist_cons_iff] at hsub
    rcases hsub with hsub | ⟨t, e, hsub⟩
    · exact h.together a c b r hsub hra hrb
    · simp only [List.cons.injEq] at e
      obtain ⟨rfl, rfl⟩ := e
      exact hra.trans (pp c (hsub.subset (by simp)))

end

section
variable {K : Type _} [Field K] [LinearOrder K] {F : History K}

/-- The timers at or below `p` that have others inside of them, less than `d` levels
deeper. -/
def Above (F : History K) (d : Nat) (p : List String) (q : List String) : Prop :=
  p <+: q ∧ q.length < p.length + d ∧ ∃ e, F.runs (q ++ [e]) ≠ []

theorem Shares.nil {R : List String → Prop} (h : ∀ q, ¬ R q) : Shares F R [] [] where
  nodup := List.nodup_nil
  mem := fun q => by simp [h q]
  all := List.Forall₂.nil

theorem Shares.append {p : List String} {d : Nat} {x : String} {l : List String} {u v : List (Line K)}
    {o o' : List (List String)} (h : Shares F (Above F d (p ++ [x])) u o)
    (h' : Shares F (fun q => ∃ y ∈ l, Above F d (p ++ [y]) q) v o') (hx : x ∉ l) :
    Shares F (fun q => ∃ y ∈ x :: l, Above F d (p ++ [y]) q) (u ++ v) (o ++ o') := by
  refine ⟨List.nodup_append.2 ⟨h.nodup, h'.nodup, ?_⟩, fun q => ?_, ?_⟩
  · rintro a ha b hb rfl
    obtain ⟨y, hy, hb⟩ := (h'.mem a).1 hb
    exact hx (prefix_unique ((h.mem a).1 ha).1 hb.1 ▸ hy)
  · rw [List.mem_append, h.mem, h'.mem]
    simp
  · rw [percents_append]
    exact List.rel_append h.all h'.all

/-- The percentage of `p` after those of the timers inside. -/
theorem Shares.snoc {p : List String} {d : Nat} {l : List String} {u : List (Line K)} {o : List (List String)}
    {m : Line K} {lab : String} {v : Int} (hm : percents [m] = [])
    (hp : ∃ e, F.runs (p ++ [e]) ≠ []) (h : Shares F (fun q => ∃ y ∈ l, Above F d (p ++ [y]) q) u o)
    (hl : ∀ q, (∃ y, Above F d (p ++ [y]) q) → ∃ y ∈ l, Above F d (p ++ [y]) q) (hv : IsShare F p (lab, v)) :
    Shares F (Above F (d + 1) p) (m :: (u ++ [.percent lab v])) (o ++ [p]) := by
  refine ⟨List.nodup_append.2 ⟨h.nodup, by simp, ?_⟩, fun q => ?_, ?_⟩
  · rintro a ha b hb rfl
    rw [List.mem_singleton] at hb
    subst hb
    obtain ⟨y, -, hy⟩ := (h.mem a).1 ha
    have := hy.1.length_le
    simp at this
  · rw [List.mem_append, h.mem, List.mem_singleton]
    constructor
    · rintro (⟨y, -, h1, h2, h3⟩ | rfl)
      · refine ⟨(List.prefix_append _ _).trans h1, ?_, h3⟩
        simp only [List.length_append, List.length_singleton] at h2
        omega
      · exact ⟨List.prefix_refl _, by omega, hp⟩
    · rintro ⟨⟨t, rfl⟩, h2, h3⟩
      cases t with
      | nil => right; simp
      | cons y t =>
        left
        refine hl _ ⟨y, ⟨t, by simp⟩, ?_, h3⟩
        simp only [List.length_append, List.length_cons, List.length_nil] at h2 ⊢
        omega
  · have e : percents (m :: (u ++ [.percent lab v])) = percents u ++ [(lab, v)] := by
      have := percents_append [m] (u ++ [.percent lab v])
      rw [List.singleton_append] at this
      rw [this, hm, percents_append]
      rfl
    rw [e]
    exact List.rel_append h.all (List.Forall₂.cons hv List.Forall₂.nil)

end

end Timing

end Verif
