import Verif.Model.Basic

namespace Verif

@[simp] theorem except_bind_ok {α β : Type _} (a : α) (f : α → Except Err β) :
    ((Except.ok a : Except Err α) >>= f) = f a := rfl

@[simp] theorem except_bind_error {α β : Type _} (e : Err) (f : α → Except Err β) :
    ((Except.error e : Except Err α) >>= f) = .error e := rfl

theorem except_bind_eq_ok {α β : Type _} {x : Except Err α} {f : α → Except Err β} {b : β} :
    (x >>= f) = .ok b ↔ ∃ a, x = .ok a ∧ f a = .ok b := by
  cases x with
  | error e => simp
  | ok a => simp

theorem assertM_eq_ok {b : Bool} {u : Unit} : assertM b = .ok u ↔ b = true := by
  unfold assertM
  cases b <;> simp

/-- Evaluating a computation on concrete data: it returns and the result passes
the test `P`. -/
def okAnd {α : Type _} (x : Except Err α) (P : α → Bool) : Bool :=
  match x with
  | .ok a => P a
  | .error _ => false

theorem okAnd_spec {α : Type _} {x : Except Err α} {P : α → Bool} (h : okAnd x P = true) :
    ∃ a, x = .ok a ∧ P a = true := by
  cases x with
  | ok a => exact ⟨a, rfl, h⟩
  | error e => cases h

section collect
variable {α : Type _} [Inhabited α]

theorem collect_ok {n : Nat} {f : Nat → Except Err α} {g : Nat → α}
    (h : collect n f = .ok g) : ∀ i < n, f i = .ok (g i) := by
  induction n generalizing g with
  | zero => intro i hi; omega
  | succ n ih =>
    simp only [collect, except_bind_eq_ok] at h
    obtain ⟨g', hg', x, hx, hfin⟩ := h
    cases hfin
    intro i hi
    by_cases hin : i = n
    · subst hin; simpa using hx
    · simp only [hin, if_false]
      exact ih hg' i (by omega)

theorem collect_exists {n : Nat} {f : Nat → Except Err α}
    (h : ∀ i < n, ∃ x, f i = .ok x) : ∃ g, collect n f = .ok g := by
  induction n with
  | zero => exact ⟨_, rfl⟩
  | succ n ih =>
    obtain ⟨g, hg⟩ := ih (fun i hi => h i (by omega))
    obtain ⟨x, hx⟩ := h n (by omega)
    exact ⟨_, by simp only [collect, hg, hx]; rfl⟩

theorem collect_error {n : Nat} {f : Nat → Except Err α} {e : Err}
    (i : Nat) (hi : i < n) (hlt : ∀ j < i, ∃ x, f j = .ok x) (h : f i = .error e) :
    collect n f = .error e := by
  induction n with
  | zero => omega
  | succ n ih =>
    by_cases hin : i = n
    · subst hin
      obtain ⟨g, hg⟩ := collect_exists hlt
      simp only [collect, hg, h]; rfl
    · simp only [collect, ih (by omega)]; rfl

theorem collect_error_elim {n : Nat} {f : Nat → Except Err α} {e : Err}
    (h : collect n f = .error e) : ∃ i < n, f i = .error e := by
  induction n with
  | zero => simp [collect] at h
  | succ n ih =>
    simp only [collect] at h
    cases hc : collect n f with
    | error e' =>
      rw [hc] at h
      cases Except.error.inj h
      obtain ⟨i, hi, hf⟩ := ih hc
      exact ⟨i, by omega, hf⟩
    | ok g =>
      rw [hc] at h
      simp only [except_bind_ok] at h
      cases hx : f n with
      | error e' =>
        rw [hx] at h
        cases Except.error.inj h
        exact ⟨n, by omega, hx⟩
      | ok x => rw [hx] at h; simp at h

theorem collect2_ok {m n : Nat} {f : Nat → Nat → Except Err α} {g : Nat → Nat → α}
    (h : collect2 m n f = .ok g) : ∀ i < m, ∀ j < n, f i j = .ok (g i j) := by
  intro i hi j hj
  exact collect_ok (collect_ok h i hi) j hj

theorem collect2_exists {m n : Nat} {f : Nat → Nat → Except Err α}
    (h : ∀ i < m, ∀ j < n, ∃ x, f i j = .ok x) : ∃ g, collect2 m n f = .ok g :=
  collect_exists (fun i hi => collect_exists (h i hi))

theorem collect2_error_00 {m n : Nat} {f : Nat → Nat → Except Err α} {e : Err}
    (hm : 0 < m) (hn : 0 < n) (h : f 0 0 = .error e) : collect2 m n f = .error e :=
  collect_error 0 hm (fun j hj => by omega)
    (collect_error 0 hn (fun j hj => by omega) h)

/-- If collecting pure values, the result is the function itself below `n`. -/
theorem collect_pure {n : Nat} {f : Nat → α} :
    ∃ g, collect n (fun i => (.ok (f i) : Except Err α)) = .ok g ∧ ∀ i < n, g i = f i := by
  obtain ⟨g, hg⟩ := collect_exists (n := n) (f := fun i => (.ok (f i) : Except Err α))
    (fun i _ => ⟨_, rfl⟩)
  refine ⟨g, hg, fun i hi => ?_⟩
  have := collect_ok hg i hi
  simpa using this.symm

end collect

section loop
variable {σ : Type _}

@[simp] theorem loop_zero (body : Nat → σ → Except Err σ) (s : σ) : loop 0 body s = .ok s := rfl

theorem loop_succ (n : Nat) (body : Nat → σ → Except Err σ) (s : σ) :
    loop (n + 1) body s = (loop n body s >>= body n) := rfl

/-- Invariant rule (partial correctness). -/
theorem loop_inv {n : Nat} {body : Nat → σ → Except Err σ} {s s' : σ}
    (Inv : Nat → σ → Prop) (h0 : Inv 0 s)
    (hstep : ∀ i < n, ∀ a b, Inv i a → body i a = .ok b → Inv (i + 1) b)
    (h : loop n body s = .ok s') : Inv n s' := by
  induction n generalizing s' with
  | zero => simp at h; subst h; exact h0
  | succ n ih =>
    rw [loop_succ, except_bind_eq_ok] at h
    obtain ⟨a, ha, hb⟩ := h
    exact hstep n (by omega) a s' (ih (fun i hi => hstep i (by omega)) ha) hb

/-- Invariant rule (total correctness). -/
theorem loop_total {n : Nat} {body : Nat → σ → Except Err σ} {s : σ}
    (Inv : Nat → σ → Prop) (h0 : Inv 0 s)
    (hstep : ∀ i < n, ∀ a, Inv i a → ∃ b, body i a = .ok b ∧ Inv (i + 1) b) :
    ∃ s', loop n body s = .ok s' ∧ Inv n s' := by
  induction n with
  | zero => exact ⟨s, rfl, h0⟩
  | succ n ih =>
    obtain ⟨a, ha, hia⟩ := ih (fun i hi => hstep i (by omega))
    obtain ⟨b, hb, hib⟩ := hstep n (by omega) a hia
    exact ⟨b, by rw [loop_succ, ha]; exact hb, hib⟩

end loop
end Verif
