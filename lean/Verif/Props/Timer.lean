import Verif.Spec.Timer
import Verif.Lemmas.Basic
import Mathlib.Algebra.Group.Int.Defs
import Mathlib.Algebra.BigOperators.Group.List.Basic
import Mathlib.Data.List.Infix

/-
C40 and C41: timers and global settings.
-/

namespace Verif

/-! ### Global settings -/

/-- C41.  After any sequence of assignments, a key reads as the value last assigned
to it; without an assignment as the environment variable of that name; else as
the empty string. -/
theorem C41_last_value_wins (env : String → Option String) (sets : List (String × String)) (key : String) :
    (sets.foldl (fun g kv => g.set kv.1 kv.2) (Globals.init env)).get key =
      ((lastSet sets key).or (env key)).getD "" := by
  have key' : ∀ (sets : List (String × String)) (g : Globals),
      (sets.foldl (fun g kv => g.set kv.1 kv.2) g).map key = (lastSet sets key).or (g.map key) ∧
      (sets.foldl (fun g kv => g.set kv.1 kv.2) g).env = g.env := by
    intro sets
    induction sets with
    | nil => intro g; simp [lastSet]
    | cons kv sets ih =>
      intro g
      obtain ⟨h1, h2⟩ := ih (g.set kv.1 kv.2)
      simp only [List.foldl_cons]
      refine ⟨?_, by rw [h2]; rfl⟩
      rw [h1]
      simp only [lastSet, Globals.set]
      cases lastSet sets key with
      | some v => rfl
      | none =>
        by_cases h : kv.1 = key
        · subst h; simp
        · have h' : ¬ (key = kv.1) := fun h' => h h'.symm
          simp [h, h']
  obtain ⟨h1, h2⟩ := key' sets (Globals.init env)
  rw [Globals.get, h1, h2]
  simp only [Globals.init]
  cases lastSet sets key with
  | some v => rfl
  | none => cases env key <;> rfl

/-- C41.  Assigning one key does not change any other. -/
theorem C41_other_keys (g : Globals) (k v k' : String) (h : k' ≠ k) : (g.set k v).get k' = g.get k' := by
  simp [Globals.get, Globals.set, h]

/-- A key set twice, with an environment variable of the same name and of another
name. -/
example : ([("a", "1"), ("b", "2"), ("a", "3")].foldl (fun g kv => g.set kv.1 kv.2)
    (Globals.init fun k => if k = "a" ∨ k = "c" then some "env" else none)).get "a" = "3" := by decide +kernel

/-! ### Timers -/

namespace Timing

variable {T : Type _} [AddCommGroup T]

/-- Names and parents of timers agree with their position. -/
def State.Placed (s : State T) : Prop :=
  ∀ q e t, s.timers (q ++ [e]) = some t → t.name = e ∧ t.parent = some q

/-- `o'` is the timer `o` after the additional runs `l`. -/
def Ran (o : Option (Timer T)) (l : List T) (o' : Option (Timer T)) : Prop :=
  (o = none ∧ l = [] ∧ o' = none) ∨
  ∃ t', o' = some t' ∧ t'.running = false ∧ (o = none → l ≠ []) ∧
    t'.times = (o.map (·.times)).getD [] ++ l ∧ t'.total = (o.map (·.total)).getD 0 + l.sum

theorem Ran.refl {o : Option (Timer T)} (h : ∀ t, o = some t → t.running = false) : Ran o [] o := by
  cases o with
  | none => exact Or.inl ⟨rfl, rfl, rfl⟩
  | some t => exact Or.inr ⟨t, rfl, h t rfl, fun h => by simp at h, by simp, by simp⟩

theorem Ran.trans {o o' o'' : Option (Timer T)} {l l' : List T} (h : Ran o l o') (h' : Ran o' l' o'') :
    Ran o (l ++ l') o'' := by
  rcases h with ⟨h1, h2, h3⟩ | ⟨t, h1, h2, h3, h4, h5⟩
  · subst h1; subst h2; subst h3; simpa using h'
  · subst h1
    rcases h' with ⟨h6, -, -⟩ | ⟨t', h6, h7, h8, h9, h10⟩
    · simp at h6
    · refine Or.inr ⟨t', h6, h7, fun h => by simp [h3 h], ?_, ?_⟩
      · rw [h9]; simp [h4]
      · rw [h10]; simp [h5, add_assoc]

theorem Ran.idle {o o' : Option (Timer T)} {l : List T} (h : Ran o l o') : ∀ t, o' = some t → t.running = false := by
  intro t ht
  rcases h with ⟨-, -, h3⟩ | ⟨t', h1, h2, -⟩
  · rw [h3] at ht; cases ht
  · rw [h1] at ht; cases ht; exact h2

/-- Strictly below `c`. -/
def Below (c q : List String) : Prop := ∃ p, p ≠ [] ∧ q = c ++ p

theorem not_below_self (c : List String) : ¬ Below c c := by
  rintro ⟨p, h1, h2⟩
  exact h1 (by simpa using h2.symm)

theorem run_append (g : Globals) (l l' : List (Call T)) : ∀ s : State T,
    run g s (l ++ l') = (do let s ← run g s l; run g s l') := by
  induction l with
  | nil => intro s; rfl
  | cons c l ih =>
    intro s
    simp only [List.cons_append, run]
    cases step g s c with
    | error e => rfl
    | ok s' => simp only [except_bind_ok, ih]

theorem enabled_of {g : Globals} (h : g.get "FRANK_DISABLE_TIMER" ≠ "1") : enabled g = true := by
  simp [enabled, h]

theorem run_history (g : Globals) (hg : enabled g = true) (F : History T) : ∀ (s : State T) (c : List String),
    s.current = c → (∃ t, s.timers c = some t) → s.Placed →
    (∀ p t, p ≠ [] → s.timers (c ++ p) = some t → t.running = false) →
    ∃ s', run g s F.calls = .ok s' ∧ s'.current = c ∧ s'.Placed ∧
      (∀ q, ¬ Below c q → s'.timers q = s.timers q) ∧
      (∀ p, p ≠ [] → Ran (s.timers (c ++ p)) (F.runs p) (s'.timers (c ++ p))) := by
  induction F with
  | done =>
    intro s c hc _ hp hi
    exact ⟨s, rfl, hc, hp, fun _ _ => rfl, fun p hp => Ran.refl fun t ht => hi p t hp ht⟩
  | span n t0 t1 i r ihi ihr =>
    intro s c hc hex hp hi
    obtain ⟨tc, htc⟩ := hex
    -- start
    have hnew : ∃ t : Timer T, (s.timers (c ++ [n])).getD (Timer.new n (some c)) = t ∧ t.running = false ∧
        t.name = n ∧ t.parent = some c := by
      cases hs : s.timers (c ++ [n]) with
      | none => exact ⟨_, rfl, rfl, rfl, rfl⟩
      | some t => exact ⟨t, rfl, hi [n] t (by simp) hs, (hp c n t hs).1, (hp c n t hs).2⟩
    obtain ⟨t, ht, hrun, hname, hpar⟩ := hnew
    have hstart : start g n t0 s = .ok ⟨(s.put (c ++ [n]) { t with running := true, startTime := t0 }).timers,
        c ++ [n]⟩ := by
      have e1 : Timer.start t t0 = .ok { t with running := true, startTime := t0 } := by
        simp [Timer.start, hrun, assertM, except_bind_ok]
      simp [start, hg, State.deref, htc, hc, State.startSubtimer, ht, e1, except_bind_ok, State.put, State.sub,
        assertM]
    generalize hs1 : (⟨(s.put (c ++ [n]) { t with running := true, startTime := t0 }).timers, c ++ [n]⟩ : State T) = s1
      at hstart
    have s1t : ∀ q, s1.timers q = if q = c ++ [n] then some { t with running := true, startTime := t0 }
        else s.timers q := by
      intro q; rw [← hs1]; rfl
    have s1c : s1.current = c ++ [n] := by rw [← hs1]
    have s1p : s1.Placed := by
      intro q e t' h
      rw [s1t] at h
      split at h
      · rename_i hq
        cases h
        obtain ⟨rfl, he⟩ := List.append_inj' hq rfl
        cases he
        exact ⟨hname, hpar⟩
      · exact hp q e t' h
    obtain ⟨s2, h2, s2c, s2p, s2o, s2b⟩ := ihi s1 (c ++ [n]) s1c ⟨_, by rw [s1t, if_pos rfl]⟩ s1p (by
      intro p t' hp' h
      rw [s1t, if_neg (by simpa using hp'), List.append_assoc] at h
      exact hi _ t' (by simp) h)
    -- stop
    have s2n : s2.timers (c ++ [n]) = some { t with running := true, startTime := t0 } := by
      rw [s2o _ (not_below_self _), s1t, if_pos rfl]
    let tf : Timer T := { t with running := false, startTime := t0, times := t.times ++ [t1 - t0], total := t.total + (t1 - t0) }
    have hstop : stop g n t1 s2 = .ok (t1 - t0, ⟨(s2.put (c ++ [n]) tf).timers, c⟩) := by
      simp [stop, hg, State.deref, s2c, s2n, hname, assertM, except_bind_ok, Timer.stop, hpar, State.put, tf]
    generalize hs3 : (⟨(s2.put (c ++ [n]) tf).timers, c⟩ : State T) = s3 at hstop
    have s3t : ∀ q, s3.timers q = if q = c ++ [n] then some tf else s2.timers q := by
      intro q; rw [← hs3]; rfl
    have s3c : s3.current = c := by rw [← hs3]
    have s3p : s3.Placed := by
      intro q e t' h
      rw [s3t] at h
      split at h
      · rename_i hq
        cases h
        obtain ⟨rfl, he⟩ := List.append_inj' hq rfl
        cases he
        exact ⟨hname, hpar⟩
      · exact s2p q e t' h
    -- from the outside, the span is one more run
    have mid : ∀ p, p ≠ [] → Ran (s.timers (c ++ p))
        (match p with
          | [] => []
          | e :: p' => if e = n then (match p' with | [] => [t1 - t0] | _ :: _ => i.runs p') else [])
        (s3.timers (c ++ p)) := by
      intro p hp'
      cases p with
      | nil => exact absurd rfl hp'
      | cons e p' =>
        by_cases he : e = n
        · subst he
          cases p' with
          | nil =>
            simp only [if_true]
            rw [s3t, if_pos rfl]
            refine Or.inr ⟨tf, rfl, rfl, fun _ => by simp, ?_, ?_⟩
            · cases hs : s.timers (c ++ [e]) <;> simp [tf, ← ht, Timer.new, hs]
            · cases hs : s.timers (c ++ [e]) <;> simp [tf, ← ht, Timer.new, hs]
          | cons e' p'' =>
            simp only [if_true]
            have h := s2b (e' :: p'') (by simp)
            have e1 : c ++ e :: e' :: p'' = c ++ [e] ++ e' :: p'' := by simp
            have ne : ¬ (c ++ [e] ++ e' :: p'' = c ++ [e]) := by simp
            rw [s1t, if_neg ne] at h
            rw [e1, s3t, if_neg ne]
            exact h
        · simp only [if_neg he]
          have nb : ¬ Below (c ++ [n]) (c ++ e :: p') := by
            rintro ⟨q, -, hq⟩
            rw [List.append_assoc] at hq
            have := List.append_cancel_left hq
            simp at this
            exact he this.1
          have ne : ¬ (c ++ e :: p' = c ++ [n]) := by
            intro hq
            have := List.append_cancel_left hq
            simp at this
            exact he this.1
          rw [s3t, if_neg ne, s2o _ nb, s1t, if_neg ne]
          exact Ran.refl fun t' h => hi _ t' (by simp) h
    have out : ∀ q, ¬ Below c q → s3.timers q = s.timers q := by
      intro q hq
      have ne : ¬ (q = c ++ [n]) := fun h => hq ⟨[n], by simp, h⟩
      have nb : ¬ Below (c ++ [n]) q := by
        rintro ⟨p, h1, h2⟩
        exact hq ⟨n :: p, by simp, by rw [h2]; simp⟩
      rw [s3t, if_neg ne, s2o _ nb, s1t, if_neg ne]
    obtain ⟨s4, h4, s4c, s4p, s4o, s4b⟩ := ihr s3 c s3c ⟨tc, by rw [out c (not_below_self c)]; exact htc⟩ s3p
      (fun p t' hp' h => (mid p hp').idle t' h)
    refine ⟨s4, ?_, s4c, s4p, fun q hq => by rw [s4o q hq, out q hq], fun p hp' => ?_⟩
    · simp only [History.calls, List.cons_append, run, step, hstart, except_bind_ok]
      rw [run_append, h2]
      simp only [except_bind_ok, run, step, hstop]
      exact h4
    · exact (mid p hp').trans (s4b p hp')

/-- What the timer tree looks like after the well-nested history `F`. -/
def Accounts (s : State T) (F : History T) : Prop :=
  s.current = [] ∧
  ∀ p, p ≠ [] →
    (F.runs p = [] → s.timers p = none) ∧
    (F.runs p ≠ [] → ∃ t, s.timers p = some t ∧ t.running = false ∧ t.times = F.runs p ∧ t.total = (F.runs p).sum ∧
      ∃ q e, p = q ++ [e] ∧ t.name = e ∧ t.parent = some q)

theorem accounts_of_clean (g : Globals) (hg : enabled g = true) (F : History T) {s : State T}
    (hc : s.current = []) (hr : ∃ t, s.timers [] = some t) (hn : ∀ p, p ≠ [] → s.timers p = none) :
    ∃ s', run g s F.calls = .ok s' ∧ Accounts s' F ∧ s'.timers [] = s.timers [] := by
  obtain ⟨s', h1, h2, h3, h4, h5⟩ := run_history g hg F s [] hc hr
    (fun q e t h => by rw [hn _ (by simp)] at h; cases h)
    (fun p t hp h => by rw [List.nil_append, hn p hp] at h; cases h)
  refine ⟨s', h1, ⟨h2, fun p hp => ?_⟩, h4 [] (not_below_self [])⟩
  have h := h5 p hp
  rw [List.nil_append, hn p hp] at h
  constructor
  · intro hr
    rcases h with ⟨-, -, h⟩ | ⟨t, -, -, h, -⟩
    · exact h
    · exact absurd hr (h rfl)
  · intro hr
    rcases h with ⟨-, h, -⟩ | ⟨t, e1, e2, -, e3, e4⟩
    · exact absurd h hr
    · have hq : p = p.dropLast ++ [p.getLast hp] := (List.dropLast_append_getLast hp).symm
      refine ⟨t, e1, e2, by simpa using e3, by simpa using e4, p.dropLast, p.getLast hp, hq, ?_⟩
      rw [hq] at e1
      exact h3 _ _ t e1

/-- C40.  Every well-nested history runs through; afterwards the root is current
again, there is a timer for every path of span names that occurred (and no
other), and it has recorded exactly the durations of the spans at this path: run
times in order, hence their number, and their sum. -/
theorem C40_accounts (g : Globals) (hg : g.get "FRANK_DISABLE_TIMER" ≠ "1") (F : History T) :
    ∃ s, run g State.init F.calls = .ok s ∧ Accounts s F := by
  replace hg := enabled_of hg
  obtain ⟨s, h1, h2, -⟩ := accounts_of_clean g hg F (s := State.init) rfl ⟨_, by simp [State.init]; rfl⟩
    (fun p hp => by simp [State.init, hp])
  exact ⟨s, h1, h2⟩

/-- C40.  What `getTotalTime` and `getNRuns` report after a well-nested history:
sum and number of the outermost spans of this name. -/
theorem C40_totals (g : Globals) (hg : g.get "FRANK_DISABLE_TIMER" ≠ "1") (F : History T) (event : String)
    (he : F.runs [event] ≠ []) :
    ∃ s, run g State.init F.calls = .ok s ∧ getTotalTime s event = .ok (F.runs [event]).sum ∧
      getNRuns s event = .ok (F.runs [event]).length := by
  replace hg := enabled_of hg
  obtain ⟨s, h1, h2, h0⟩ := accounts_of_clean g hg F (s := State.init) rfl ⟨_, by simp [State.init]; rfl⟩
    (fun p hp => by simp [State.init, hp])
  obtain ⟨t, e1, -, e3, e4, -⟩ := (h2.2 [event] (by simp)).2 he
  have e0 : s.timers [] = some (Timer.new "" none) := by rw [h0]; simp [State.init]
  refine ⟨s, h1, ?_, ?_⟩
  · simp [getTotalTime, State.deref, h2.1, e0, State.sub, e1, assertM, except_bind_ok, e4]
  · simp [getNRuns, State.deref, h2.1, e0, State.sub, e1, assertM, except_bind_ok, e3]

/-- C40.  Clearing the timers while none is running forgets everything: a history
after it is accounted for as if it were the first. -/
theorem C40_clear (g : Globals) (hg : g.get "FRANK_DISABLE_TIMER" ≠ "1") (F F' : History T) :
    ∃ s, run g State.init (F.calls ++ .clear :: F'.calls) = .ok s ∧ Accounts s F' := by
  replace hg := enabled_of hg
  obtain ⟨s, h1, h2, h0⟩ := accounts_of_clean g hg F (s := State.init) rfl ⟨_, by simp [State.init]; rfl⟩
    (fun p hp => by simp [State.init, hp])
  have e0 : s.timers [] = some (Timer.new "" none) := by rw [h0]; simp [State.init]
  have hclear : clearTimers s = .ok ⟨fun q => if q = [] then some { (Timer.new "" none : Timer T) with total := 0 }
      else none, s.current⟩ := by
    simp [clearTimers, State.deref, e0, Timer.new, assertM, except_bind_ok]
  obtain ⟨s', h3, h4, -⟩ := accounts_of_clean g hg F' (s := ⟨fun q => if q = [] then
      some { (Timer.new "" none : Timer T) with total := 0 } else none, s.current⟩) h2.1 ⟨_, by simp; rfl⟩
      (fun p hp => by simp [hp])
  refine ⟨s', ?_, h4⟩
  rw [run_append, h1]
  simp only [except_bind_ok, run, step, hclear]
  exact h3

/-- State invariant of arbitrary histories of `start` and `stop`. -/
structure Inv (s : State T) : Prop where
  root : ∃ t, s.timers [] = some t ∧ t.running = false ∧ t.parent = none
  placed : s.Placed
  exist : ∀ p, p <+: s.current → ∃ t, s.timers p = some t
  run : ∀ p t, p ≠ [] → s.timers p = some t → (t.running = true ↔ p <+: s.current)

theorem Inv.init : Inv (State.init : State T) where
  root := ⟨_, by simp [State.init]; rfl, rfl, rfl⟩
  placed := fun q e t h => by simp [State.init] at h
  exist := fun p hp => by
    have : p = [] := by simpa [State.init] using hp
    subst this
    exact ⟨_, by simp [State.init]; rfl⟩
  run := fun p t hp h => by simp [State.init, hp] at h

theorem Inv.start {g : Globals} {s s' : State T} (h : Inv s) {e : String} {t : T}
    (hs : Timing.start g e t s = .ok s') : Inv s' := by
  rw [Timing.start] at hs
  split at hs
  · rw [except_bind_eq_ok] at hs
    obtain ⟨tc, h1, hs⟩ := hs
    rw [except_bind_eq_ok] at hs
    obtain ⟨s1, h2, hs⟩ := hs
    rw [except_bind_eq_ok] at hs
    obtain ⟨te, h3, hs⟩ := hs
    rw [State.startSubtimer, except_bind_eq_ok] at h2
    obtain ⟨tn, h4, h2⟩ := h2
    cases Except.ok.inj h2
    cases Except.ok.inj hs
    clear h2 hs
    rw [Timer.start, except_bind_eq_ok] at h4
    obtain ⟨_, h5, h4⟩ := h4
    have hnr := assertM_eq_ok.1 h5
    generalize ho : (s.timers (s.current ++ [e])).getD (Timer.new e (some s.current)) = tp at h4 hnr
    have hn : tp.name = e ∧ tp.parent = some s.current := by
      rw [← ho]
      cases hx : s.timers (s.current ++ [e]) with
      | none => exact ⟨rfl, rfl⟩
      | some tx => exact h.placed _ _ _ hx
    have htn : tn = { tp with running := true, startTime := t } := (Except.ok.inj h4).symm
    have ne0 : ∀ q : List String, ¬ ([] = q ++ [e]) := fun q h => by simp at h
    refine ⟨?_, ?_, ?_, ?_⟩
    · obtain ⟨tr, r1, r2⟩ := h.root
      exact ⟨tr, by simp only [State.put]; rw [if_neg (ne0 _)]; exact r1, r2⟩
    · intro q e' t' hq
      simp only [State.put] at hq
      split at hq
      · rename_i heq
        obtain ⟨rfl, he⟩ := List.append_inj' heq rfl
        cases he
        cases hq
        rw [htn]
        exact hn
      · exact h.placed q e' t' hq
    · intro p hp
      simp only [State.put] at hp ⊢
      by_cases hpe : p = s.current ++ [e]
      · exact ⟨tn, if_pos hpe⟩
      · rw [if_neg hpe]
        rcases List.prefix_concat_iff.1 hp with h6 | h6
        · exact absurd h6 hpe
        · exact h.exist p h6
    · intro p t' hp hq
      simp only [State.put] at hq ⊢
      by_cases hpe : p = s.current ++ [e]
      · rw [if_pos hpe] at hq
        cases hq
        rw [htn, hpe]
        simp
      · rw [if_neg hpe] at hq
        rw [h.run p t' hp hq, List.prefix_concat_iff]
        constructor
        · exact Or.inr
        · rintro (h6 | h6)
          · exact absurd h6 hpe
          · exact h6
  · cases Except.ok.inj hs
    exact h

theorem Inv.stop {g : Globals} {s s' : State T} {d : T} (h : Inv s) {e : String} {t : T}
    (hs : Timing.stop g e t s = .ok (d, s')) : Inv s' := by
  rw [Timing.stop] at hs
  split at hs
  · rw [except_bind_eq_ok] at hs
    obtain ⟨tc, h1, hs⟩ := hs
    rw [except_bind_eq_ok] at hs
    obtain ⟨_, h2, hs⟩ := hs
    rw [except_bind_eq_ok] at hs
    obtain ⟨r, h3, hs⟩ := hs
    cases Except.ok.inj hs
    rw [Timer.stop, except_bind_eq_ok] at h3
    obtain ⟨_, h4, h3⟩ := h3
    have hrun := assertM_eq_ok.1 h4
    have hcur : s.timers s.current = some tc := by
      rw [State.deref] at h1
      split at h1
      · cases h1
      · rename_i heq; cases Except.ok.inj h1; exact heq
    have hne : s.current ≠ [] := by
      intro h0
      obtain ⟨tr, r1, r2, -⟩ := h.root
      rw [h0, r1] at hcur
      cases hcur
      rw [r2] at hrun
      cases hrun
    obtain ⟨q, e', hq⟩ : ∃ q e', s.current = q ++ [e'] :=
      ⟨_, _, (List.dropLast_append_getLast hne).symm⟩
    have hpl := h.placed q e' tc (by rw [← hq]; exact hcur)
    have hr2 : r.2 = { tc with running := false, times := tc.times ++ [t - tc.startTime], total := tc.total + (t - tc.startTime) } := by
      rw [← Except.ok.inj h3]
    have hpar : r.2.parent.getD s.current = q := by rw [hr2]; simp [hpl.2]
    have ht : ∀ p, (s.put s.current r.2).timers p = if p = q ++ [e'] then some r.2 else s.timers p := by
      intro p; rw [← hq]; rfl
    have hcq : (({ s.put s.current r.2 with current := r.2.parent.getD (s.put s.current r.2).current } : State T)).current = q := hpar
    refine ⟨?_, ?_, ?_, ?_⟩
    · obtain ⟨tr, r1, r2⟩ := h.root
      refine ⟨tr, ?_, r2⟩
      show (s.put s.current r.2).timers [] = some tr
      rw [ht, if_neg (by simp)]
      exact r1
    · intro q' e'' t' hq'
      change (s.put s.current r.2).timers _ = some t' at hq'
      rw [ht] at hq'
      split at hq'
      · rename_i heq
        obtain ⟨rfl, he⟩ := List.append_inj' heq rfl
        cases he
        cases hq'
        rw [hr2]
        exact hpl
      · exact h.placed _ _ _ hq'
    · intro p hp
      rw [hcq] at hp
      show ∃ t', (s.put s.current r.2).timers p = some t'
      rw [ht]
      split
      · exact ⟨_, rfl⟩
      · exact h.exist p (hp.trans (by rw [hq]; exact List.prefix_append _ _))
    · intro p t' hp hq'
      change (s.put s.current r.2).timers p = some t' at hq'
      rw [hcq]
      rw [ht] at hq'
      split at hq'
      · rename_i heq
        cases hq'
        rw [hr2, heq]
        simp only [Bool.false_eq_true, false_iff]
        intro hpre
        have := hpre.length_le
        simp at this
        omega
      · rename_i hne'
        rw [h.run p t' hp hq', hq, List.prefix_concat_iff]
        constructor
        · rintro (h6 | h6)
          · exact absurd h6 hne'
          · exact h6
        · exact Or.inr
  · cases Except.ok.inj hs
    exact h

/-- A history without `clearTimers`. -/
def NoClear (l : List (Call T)) : Prop := ∀ c ∈ l, c ≠ .clear

theorem Inv.run' {g : Globals} (l : List (Call T)) : ∀ s s' : State T, Inv s → NoClear l →
    Timing.run g s l = .ok s' → Inv s' := by
  induction l with
  | nil => intro s s' h _ hr; cases Except.ok.inj hr; exact h
  | cons c l ih =>
    intro s s' h hn hr
    rw [Timing.run, except_bind_eq_ok] at hr
    obtain ⟨s1, h1, hr⟩ := hr
    refine ih s1 s' ?_ (fun c' hc => hn c' (by simp [hc])) hr
    cases c with
    | start e t => exact h.start h1
    | stop e t =>
      rw [step, except_bind_eq_ok] at h1
      obtain ⟨r, h2, h1⟩ := h1
      cases Except.ok.inj h1
      exact h.stop (d := r.1) (by rw [h2])
    | clear => exact absurd rfl (hn _ (by simp))

/-- C40.  In every state reached by starting and stopping timers, the running
timers are those on the way from the root to the current timer. -/
theorem C40_running (g : Globals) (l : List (Call T)) (hl : NoClear l) (s : State T)
    (h : run g State.init l = .ok s) (p : List String) (t : Timer T) (hp : p ≠ []) (ht : s.timers p = some t) :
    t.running = true ↔ p <+: s.current :=
  (Inv.run' l _ _ Inv.init hl h).run p t hp ht

/-- C40.  A stop that does not name the running timer violates the assertion, in
every state reached by starting and stopping timers; so does every stop while
only the root is left. -/
theorem C40_mismatch (g : Globals) (hg : g.get "FRANK_DISABLE_TIMER" ≠ "1") (l : List (Call T)) (hl : NoClear l) (s : State T)
    (h : run g State.init l = .ok s) (event : String) (now : T)
    (hm : ∀ q, s.current ≠ q ++ [event]) : stop g event now s = .error .assertFail := by
  replace hg := enabled_of hg
  have hi := Inv.run' l _ _ Inv.init hl h
  by_cases hc : s.current = []
  · obtain ⟨tr, r1, r2, -⟩ := hi.root
    simp only [stop, hg, if_true, hc, State.deref, r1, except_bind_ok, Timer.stop, r2, assertM]
    split <;> rfl
  · obtain ⟨q, e, hq⟩ : ∃ q e, s.current = q ++ [e] := ⟨_, _, (List.dropLast_append_getLast hc).symm⟩
    obtain ⟨tc, htc⟩ := hi.exist s.current (List.prefix_refl _)
    have hn := (hi.placed q e tc (by rw [← hq]; exact htc)).1
    have hne : ¬ (tc.name = event) := by
      rw [hn]
      intro h0
      exact hm q (by rw [hq, h0])
    simp [stop, hg, State.deref, htc, hne, assertM]

/-- Starting a timer always succeeds in such states, and makes it current. -/
theorem C40_start (g : Globals) (hg : g.get "FRANK_DISABLE_TIMER" ≠ "1") (l : List (Call T)) (hl : NoClear l) (s : State T)
    (h : run g State.init l = .ok s) (event : String) (now : T) :
    ∃ s', start g event now s = .ok s' ∧ s'.current = s.current ++ [event] := by
  replace hg := enabled_of hg
  have hi := Inv.run' l _ _ Inv.init hl h
  obtain ⟨tc, htc⟩ := hi.exist s.current (List.prefix_refl _)
  have hnr : ((s.timers (s.current ++ [event])).getD (Timer.new event (some s.current))).running = false := by
    cases hx : s.timers (s.current ++ [event]) with
    | none => rfl
    | some tx =>
      by_contra hr
      have := ((hi.run _ tx (by simp) hx).1 (by simpa using hr)).length_le
      simp at this
      omega
  simp [start, hg, State.deref, htc, State.startSubtimer, Timer.start, hnr, assertM, except_bind_ok, State.put,
    State.sub]

/-- With `FRANK_DISABLE_TIMER=1` starting and stopping have no effect. -/
theorem C40_disabled (g : Globals) (hg : g.get "FRANK_DISABLE_TIMER" = "1") (event : String) (now : T) (s : State T) :
    start g event now s = .ok s ∧ stop g event now s = .ok (0, s) := by
  have : enabled g = false := by simp [enabled, hg]
  simp [start, stop, this]

/-- Clearing the timers while one is running is accepted, and leaves the current
timer dangling: the next start or stop is undefined behaviour. -/
theorem C40_clear_while_running (g : Globals) (hg : g.get "FRANK_DISABLE_TIMER" ≠ "1") (a : String) (t : T) :
    ∃ s, run g State.init [.start a t, .clear] = .ok s ∧
      (∀ e t', start g e t' s = .error .ub) ∧ (∀ e t', stop g e t' s = .error .ub) := by
  replace hg := enabled_of hg
  refine ⟨⟨fun q => if q = [] then some { (Timer.new "" none : Timer T) with total := 0 } else none, [a]⟩, ?_, ?_, ?_⟩
  · simp [run, step, start, hg, State.deref, State.init, State.startSubtimer, Timer.start, Timer.new, assertM,
      except_bind_ok, State.put, State.sub, clearTimers]
  · intro e t'
    simp [start, hg, State.deref]
  · intro e t'
    simp [stop, hg, State.deref]

/-- A nested history over the integers: `a` from 0 to 10 with `b` from 2 to 5
inside, then `a` from 20 to 21. -/
example : (History.span "a" (0 : Int) 10 (.span "b" 2 5 .done .done) (.span "a" 20 21 .done .done)).runs ["a"] = [10, 1]
    ∧ (History.span "a" (0 : Int) 10 (.span "b" 2 5 .done .done) (.span "a" 20 21 .done .done)).runs ["a", "b"] = [3]
    ∧ (Globals.init fun _ => none).get "FRANK_DISABLE_TIMER" ≠ "1" := by
  refine ⟨rfl, rfl, by decide⟩

end Timing

end Verif
