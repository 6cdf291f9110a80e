import Verif.Spec.OpenMP
import Mathlib.Data.List.Nodup
import Mathlib.Data.List.Sublists
import Mathlib.Algebra.BigOperators.Group.List.Basic

/-
Parallel regions: if conflicting tasks are ordered by the dependences, every
schedule computes the sequential result.
-/

namespace Verif.Omp

variable {Cell V Loc J : Type}

theorem Step.commute {σ τ : Step Cell V} (h : ¬ σ.Conflict τ) (s : Cell → V) :
    σ.act (τ.act s) = τ.act (σ.act s) := by
  have h' : ∀ c, ¬ ((c ∈ σ.writes ∧ (c ∈ τ.reads ∨ c ∈ τ.writes)) ∨ (c ∈ σ.reads ∧ c ∈ τ.writes)) :=
    fun c hc => h ⟨c, hc⟩
  funext c
  by_cases hσ : c ∈ σ.writes
  · have hτ : c ∉ τ.writes := fun hτ => h' c (.inl ⟨hσ, .inr hτ⟩)
    rw [τ.frame _ _ hτ]
    refine σ.dep _ _ (fun d hd => ?_) c hσ
    exact τ.frame _ _ fun hτ => h' d (.inr ⟨hd, hτ⟩)
  · rw [σ.frame _ _ hσ]
    by_cases hτ : c ∈ τ.writes
    · refine (τ.dep _ _ (fun d hd => ?_) c hτ).symm
      exact σ.frame _ _ fun hσ => h' d (.inl ⟨hσ, .inl hd⟩)
    · rw [τ.frame _ _ hτ, τ.frame _ _ hτ, σ.frame _ _ hσ]

theorem exec_append (l l' : List (Step Cell V)) (s : Cell → V) :
    exec (l ++ l') s = exec l' (exec l s) := by
  simp [exec, List.foldl_append]

theorem exec_commute {σ : Step Cell V} {l : List (Step Cell V)} (h : ∀ τ ∈ l, ¬ σ.Conflict τ)
    (s : Cell → V) : exec l (σ.act s) = σ.act (exec l s) := by
  induction l generalizing s with
  | nil => rfl
  | cons τ l ih =>
    show exec l (τ.act (σ.act s)) = σ.act (exec l (τ.act s))
    rw [← Step.commute (h τ (by simp)), ih (fun τ hτ => h τ (by simp [hτ]))]

theorem finish_noConflict (σ : Step Cell V) : ¬ σ.Conflict Step.finish ∧ ¬ Step.finish.Conflict σ := by
  constructor <;> rintro ⟨c, h⟩ <;> simp [Step.finish] at h

theorem Step.Conflict.symm {σ τ : Step Cell V} (h : σ.Conflict τ) : τ.Conflict σ := by
  obtain ⟨c, ⟨h1, h2 | h2⟩ | ⟨h1, h2⟩⟩ := h
  · exact ⟨c, .inr ⟨h2, h1⟩⟩
  · exact ⟨c, .inl ⟨h2, .inr h1⟩⟩
  · exact ⟨c, .inl ⟨h2, .inl h1⟩⟩

/-- Performing the remaining steps of some tasks in the given order. -/
def rest (P : Region Loc Cell V J) (l : List J) (c : J → Nat) (s : Cell → V) : Cell → V :=
  l.foldl (fun s x => exec ((P.steps x).drop (c x)) s) s

theorem rest_append (P : Region Loc Cell V J) (l l' : List J) (c : J → Nat) (s : Cell → V) :
    rest P (l ++ l') c s = rest P l' c (rest P l c s) := by
  simp [rest, List.foldl_append]

theorem rest_congr (P : Region Loc Cell V J) {l : List J} {c c' : J → Nat} (h : ∀ x ∈ l, c x = c' x)
    (s : Cell → V) : rest P l c s = rest P l c' s := by
  induction l generalizing s with
  | nil => rfl
  | cons x l ih =>
    show rest P l c (exec ((P.steps x).drop (c x)) s) = rest P l c' (exec ((P.steps x).drop (c' x)) s)
    rw [h x (by simp), ih (fun y hy => h y (by simp [hy]))]

theorem rest_commute (P : Region Loc Cell V J) {σ : Step Cell V} {l : List J} {c : J → Nat}
    (h : ∀ x ∈ l, ∀ τ ∈ (P.steps x).drop (c x), ¬ σ.Conflict τ) (s : Cell → V) :
    rest P l c (σ.act s) = σ.act (rest P l c s) := by
  induction l generalizing s with
  | nil => rfl
  | cons x l ih =>
    show rest P l c (exec _ (σ.act s)) = σ.act (rest P l c (exec _ s))
    rw [exec_commute (h x (by simp)), ih (fun y hy => h y (by simp [hy]))]

section
variable (P : Region Loc Cell V J)

/-- Conflicting tasks are ordered by the dependences. -/
def Covered : Prop := ∀ x y, [x, y].Sublist P.jobs →
  (∃ σ ∈ P.body x, ∃ τ ∈ P.body y, σ.Conflict τ) → Relation.TransGen P.Waits x y

/-- What holds in all reachable states: tasks that have started have nothing to wait for;
performing the remaining steps gives the sequential result. -/
structure Inv (s₀ : Cell → V) (c : J → Nat) (s : Cell → V) : Prop where
  started : ∀ x ∈ P.jobs, 0 < c x → ∀ w, P.Waits w x → P.Done c w
  value : rest P P.jobs c s = rest P P.jobs (fun _ => 0) s₀

variable {P}

theorem Waits.mem {x y : J} (h : P.Waits x y) : x ∈ P.jobs ∧ y ∈ P.jobs :=
  ⟨h.1.subset (by simp), h.1.subset (by simp)⟩

theorem done_pos {c : J → Nat} {x : J} (h : P.Done c x) : 0 < c x := by
  simp only [Region.Done, Region.steps, List.length_append, List.length_singleton] at h
  omega

/-- A task that may run, or that a started task waited for: all tasks before it in the
dependence order are complete. -/
theorem Inv.done {s₀ s : Cell → V} {c : J → Nat} (h : Inv P s₀ c s) {x y : J}
    (hxy : Relation.TransGen P.Waits x y) (hy : ∀ w, P.Waits w y → P.Done c w) : P.Done c x := by
  induction hxy using Relation.TransGen.head_induction_on with
  | single hab => exact hy _ hab
  | head hab _ ih => exact h.started _ (Waits.mem hab).2 (done_pos ih) _ hab

theorem steps_conflict {x y : J} {σ τ : Step Cell V} (hσ : σ ∈ P.steps x) (hτ : τ ∈ P.steps y)
    (h : σ.Conflict τ) : ∃ σ ∈ P.body x, ∃ τ ∈ P.body y, σ.Conflict τ := by
  simp only [Region.steps, List.mem_append, List.mem_singleton] at hσ hτ
  rcases hσ with hσ | rfl
  · rcases hτ with hτ | rfl
    · exact ⟨σ, hσ, τ, hτ, h⟩
    · exact absurd h (finish_noConflict σ).1
  · exact absurd h (finish_noConflict τ).2

theorem Inv.move [DecidableEq J] (hn : P.jobs.Nodup) (hc : Covered P) {s₀ s s' : Cell → V} {c c' : J → Nat}
    (h : Inv P s₀ c s) (hm : P.Move (c, s) (c', s')) : Inv P s₀ c' s' := by
  cases hm with
  | step _ _ x hx hlt =>
  obtain ⟨hxm, hxd, hxw⟩ := hx
  have mono : ∀ w, P.Done c w → P.Done (Function.update c x (c x + 1)) w := by
    intro w hw
    unfold Region.Done at hw ⊢
    by_cases e : w = x
    · subst e; rw [Function.update_self]; omega
    · rw [Function.update_of_ne e]; exact hw
  constructor
  · intro y hy hpos w hw
    apply mono
    by_cases e : y = x
    · subst e; exact hxw w hw
    · rw [Function.update_of_ne e] at hpos
      exact h.started y hy hpos w hw
  · rw [← h.value]
    obtain ⟨l₁, l₂, hl⟩ := List.append_of_mem hxm
    have n12 : x ∉ l₁ ∧ x ∉ l₂ := by
      rw [hl, List.nodup_append] at hn
      have := List.nodup_cons.1 hn.2.1
      exact ⟨fun hx1 => hn.2.2 x hx1 x (by simp) rfl, this.1⟩
    rw [hl, rest_append, rest_append]
    rw [rest_congr P (l := l₁) (c := Function.update c x (c x + 1)) (c' := c)
      (fun y hy => Function.update_of_ne (ne_of_mem_of_not_mem hy n12.1) _ _)]
    rw [rest_commute]
    · show rest P l₂ _ (exec _ _) = rest P l₂ _ (exec _ _)
      rw [rest_congr P (l := l₂) (c := Function.update c x (c x + 1)) (c' := c)
        (fun y hy => Function.update_of_ne (ne_of_mem_of_not_mem hy n12.2) _ _)]
      rw [Function.update_self, List.drop_eq_getElem_cons (i := c x) hlt]
      rfl
    · intro y hy τ hτ hcf
      have sub : [y, x].Sublist P.jobs := by
        rw [hl]
        exact (List.singleton_sublist.2 hy).append (List.singleton_sublist.2 (by simp))
      have path := hc y x sub (steps_conflict (List.mem_of_mem_drop hτ) (List.getElem_mem hlt) hcf.symm)
      have dn : P.Done c y := h.done path hxw
      rw [List.drop_eq_nil_of_le dn] at hτ
      cases hτ

theorem Inv.reach [DecidableEq J] (hn : P.jobs.Nodup) (hc : Covered P) {s₀ : Cell → V} {st : (J → Nat) × (Cell → V)}
    (h : P.Reach s₀ st) : Inv P s₀ st.1 st.2 := by
  unfold Region.Reach at h
  induction h with
  | refl => exact ⟨fun x _ h => by simp at h, rfl⟩
  | tail _ hm ih => exact ih.move hn hc hm

theorem rest_zero (l : List J) (s : Cell → V) : rest P l (fun _ => 0) s = sequential l P.body s := by
  induction l generalizing s with
  | nil => rfl
  | cons x l ih =>
    show rest P l _ (exec _ s) = sequential l P.body (exec (P.body x) s)
    rw [ih, List.drop_zero, Region.steps, exec_append]
    rfl

theorem rest_done {l : List J} {c : J → Nat} (h : ∀ x ∈ l, P.Done c x) (s : Cell → V) :
    rest P l c s = s := by
  induction l generalizing s with
  | nil => rfl
  | cons x l ih =>
    show rest P l c (exec _ s) = s
    rw [List.drop_eq_nil_of_le (h x (by simp))]
    exact ih (fun y hy => h y (by simp [hy])) s

theorem Region.deterministic [DecidableEq J] (hn : P.jobs.Nodup) (hc : Covered P) : P.Deterministic := by
  rintro s s' ⟨c, hr, hd⟩
  have := (Inv.reach hn hc hr).value
  rw [rest_done hd, rest_zero] at this
  exact this

theorem Region.raceFree [DecidableEq J] (hn : P.jobs.Nodup) (hc : Covered P) : P.RaceFree := by
  intro s c s' hr x y hxy hx hy σ hσ τ hτ hcf
  have inv := Inv.reach hn hc hr
  have order : [x, y].Sublist P.jobs ∨ [y, x].Sublist P.jobs := by
    obtain ⟨l₁, l₂, hl⟩ := List.append_of_mem hx.1
    have := hy.1
    rw [hl] at this ⊢
    rcases List.mem_append.1 this with h | h
    · exact .inr ((List.singleton_sublist.2 h).append (List.singleton_sublist.2 (by simp)))
    · left
      rcases List.mem_cons.1 h with h | h
      · exact absurd h.symm hxy
      · exact (List.nil_sublist l₁).append (List.Sublist.cons_cons x (List.singleton_sublist.2 h))
  rcases order with o | o
  · exact hx.2.1 (inv.done (hc x y o ⟨σ, hσ, τ, hτ, hcf⟩) hy.2.2)
  · exact hy.2.1 (inv.done (hc y x o ⟨τ, hτ, σ, hσ, hcf.symm⟩) hx.2.2)

/-- The earliest incomplete task may run. -/
theorem Region.exists_ready (hn : P.jobs.Nodup) {c : J → Nat} (h : ∃ x ∈ P.jobs, ¬ P.Done c x) :
    ∃ x, P.Ready c x := by
  classical
  have key : ∀ l : List J, (∃ x ∈ l, ¬ P.Done c x) →
      ∃ l₁ x l₂, l = l₁ ++ x :: l₂ ∧ ¬ P.Done c x ∧ ∀ y ∈ l₁, P.Done c y := by
    intro l
    induction l with
    | nil => rintro ⟨x, hx, -⟩; cases hx
    | cons a l ih =>
      rintro ⟨x, hx, hd⟩
      by_cases ha : P.Done c a
      · rcases List.mem_cons.1 hx with rfl | hx
        · exact absurd ha hd
        · obtain ⟨l₁, y, l₂, e, h1, h2⟩ := ih ⟨x, hx, hd⟩
          refine ⟨a :: l₁, y, l₂, by rw [e]; rfl, h1, ?_⟩
          intro z hz
          rcases List.mem_cons.1 hz with rfl | hz
          · exact ha
          · exact h2 z hz
      · exact ⟨[], a, l, rfl, ha, by simp⟩
  obtain ⟨l₁, x, l₂, e, h1, h2⟩ := key _ h
  refine ⟨x, by rw [e]; simp, h1, ?_⟩
  rintro w ⟨hw, -⟩
  apply h2
  rw [e] at hw hn
  rw [List.nodup_append] at hn
  have hx1 : x ∉ l₁ := fun hx => hn.2.2 x hx x (by simp) rfl
  have hx2 : x ∉ l₂ := (List.nodup_cons.1 hn.2.1).1
  obtain ⟨r₁, r₂, hr, hr1, hr2⟩ := List.sublist_append_iff.1 hw
  rcases r₁ with _ | ⟨a, r₁⟩
  · simp only [List.nil_append] at hr
    subst hr
    cases hr2 with
    | cons _ h' => exact absurd (h'.subset (by simp)) hx2
    | cons_cons _ h' => exact absurd (h'.subset (by simp)) hx2
  · simp only [List.cons_append, List.cons.injEq] at hr
    exact hr.1 ▸ hr1.subset (by simp)

theorem Region.progress [DecidableEq J] (hn : P.jobs.Nodup) : P.Progress :=
  fun _ _ _ _ h => Region.exists_ready hn h

theorem Region.completes [DecidableEq J] (hn : P.jobs.Nodup) : P.Completes := by
  intro s c s' _
  suffices ∀ n : Nat, ∀ (c : J → Nat) (s : Cell → V),
      (P.jobs.map (fun x => (P.steps x).length - c x)).sum ≤ n →
      ∃ c' s'', Relation.ReflTransGen P.Move (c, s) (c', s'') ∧ ∀ x ∈ P.jobs, P.Done c' x from
    this _ c s' le_rfl
  intro n
  induction n with
  | zero =>
    intro c s h
    refine ⟨c, s, .refl, fun x hx => ?_⟩
    obtain ⟨l₁, l₂, hl⟩ := List.append_of_mem hx
    rw [hl] at h
    simp only [List.map_append, List.map_cons, List.sum_append, List.sum_cons] at h
    unfold Region.Done
    omega
  | succ n ih =>
    intro c s h
    by_cases hd : ∃ x ∈ P.jobs, ¬ P.Done c x
    · obtain ⟨x, hx⟩ := Region.exists_ready hn hd
      have hlt : c x < (P.steps x).length := by
        have := hx.2.1
        unfold Region.Done at this
        omega
      obtain ⟨c', s', hr, hd'⟩ := ih (Function.update c x (c x + 1)) ((P.steps x)[c x].act s) (by
        obtain ⟨l₁, l₂, hl⟩ := List.append_of_mem hx.1
        have n12 : x ∉ l₁ ∧ x ∉ l₂ := by
          rw [hl, List.nodup_append] at hn
          have := List.nodup_cons.1 hn.2.1
          exact ⟨fun hx1 => hn.2.2 x hx1 x (by simp) rfl, this.1⟩
        have upd : ∀ l : List J, x ∉ l → l.map (fun y => (P.steps y).length -
            Function.update c x (c x + 1) y) = l.map (fun y => (P.steps y).length - c y) := by
          intro l hxl
          apply List.map_congr_left
          intro y hy
          rw [Function.update_of_ne (ne_of_mem_of_not_mem hy hxl)]
        rw [hl] at h ⊢
        simp only [List.map_append, List.map_cons, List.sum_append, List.sum_cons, upd l₁ n12.1,
          upd l₂ n12.2, Function.update_self] at h ⊢
        omega)
      exact ⟨c', s', Relation.ReflTransGen.head (.step c s x hx hlt) hr, hd'⟩
    · refine ⟨c, s, .refl, fun x hx => ?_⟩
      by_contra hx'
      exact hd ⟨x, hx, hx'⟩

end
end Verif.Omp
