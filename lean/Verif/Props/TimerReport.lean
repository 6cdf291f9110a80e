import Verif.Lemmas.TimerReport
import Verif.Props.Morton
import Mathlib.Algebra.Order.Floor.Semiring
import Mathlib.Data.Rat.Floor
import Mathlib.Data.List.Sort
import Mathlib.Tactic.Positivity
import Mathlib.Tactic.NormNum

/-
C64: the timing report.
-/

namespace Verif

namespace Timing

section
variable {K : Type _} [Field K] [LinearOrder K] [IsStrictOrderedRing K] [FloorRing K]

theorem percentOf_ok {a t : K} (h0 : 0 ≤ a) (h1 : a ≤ t) (ht : t ≠ 0) :
    ∃ v, percentOf a t = .ok v ∧ 0 ≤ v ∧ v ≤ 100 ∧ |(v : K) - 100 * (a / t)| ≤ 1 / 2 := by
  have hp : 0 < t := lt_of_le_of_ne (h0.trans h1) (Ne.symm ht)
  have hx0 : 0 ≤ a / t * 100 := by positivity
  have hx1 : a / t * 100 ≤ 100 := by
    have : a / t ≤ 1 := (div_le_one hp).2 h1
    linarith
  have hr0 : 0 ≤ roundHalf (a / t * 100) := by
    rw [roundHalf, if_pos hx0]
    exact Int.floor_nonneg.2 (by linarith)
  have hr1 : roundHalf (a / t * 100) ≤ 100 := by
    rw [roundHalf, if_pos hx0]
    have : ⌊a / t * 100 + 1 / 2⌋ < 101 := Int.floor_lt.2 (by push_cast; linarith)
    omega
  have hr2 : |(roundHalf (a / t * 100) : K) - 100 * (a / t)| ≤ 1 / 2 := by
    rw [roundHalf, if_pos hx0, abs_le]
    have h2 := Int.floor_le (a / t * 100 + 1 / 2)
    have h3 := Int.lt_floor_add_one (a / t * 100 + 1 / 2)
    constructor <;> linarith
  exact ⟨_, by rw [percentOf, if_neg ht, if_pos ⟨by omega, by omega⟩], hr0, hr1, hr2⟩

omit [Field K] [IsStrictOrderedRing K] [FloorRing K] in
theorem strictWeak_total : StrictWeak (fun a b : String × K => decide (b.2 < a.2)) where
  irrefl := fun a => by simp
  trans := fun a b c h1 h2 => by
    simp only [decide_eq_true_eq] at *
    exact h2.trans h1
  incomp := fun a b c h1 h2 h3 h4 => by
    simp only [decide_eq_false_iff_not, not_lt] at *
    exact ⟨h1.trans h3, h4.trans h2⟩

/-- `TimeSpent` for the part of the report at and below `p`. -/
def Spent (F : History K) (p : List String) (d : Nat) : Prop :=
  ∀ q e, p <+: q → q.length < p.length + d → F.runs (q ++ [e]) ≠ [] → (F.runs q).sum ≠ 0

variable {F : History K} {s : State K} {lo hi : K} {keys : List String → List String}
  {sort : (String × K → String × K → Bool) → List (String × K) → List (String × K)}

omit [LinearOrder K] [IsStrictOrderedRing K] [FloorRing K] in
theorem Accounts.deref (ha : Accounts s F) {p : List String} (hp : p ≠ []) (hr : F.runs p ≠ []) :
    ∃ t, s.deref p = .ok t ∧ t.running = false ∧ t.name = p.getLastD "" ∧ t.total = (F.runs p).sum := by
  obtain ⟨t, h1, h2, -, h4, q, e, hq, hn, -⟩ := (ha.2 p hp).2 hr
  exact ⟨t, by rw [State.deref, h1], h2, by rw [hn, hq]; simp, h4⟩

omit [LinearOrder K] [IsStrictOrderedRing K] [FloorRing K] in
theorem Accounts.mem_keys (ha : Accounts s F) (hk : KeysOf s keys) (p : List String) (e : String) :
    e ∈ keys p ↔ F.runs (p ++ [e]) ≠ [] := by
  rw [(hk p).2 e]
  constructor
  · rintro ⟨t, ht⟩ h
    rw [(ha.2 _ (by simp)).1 h] at ht
    cases ht
  · intro h
    obtain ⟨t, ht, -⟩ := (ha.2 _ (by simp)).2 h
    exact ⟨t, ht⟩

omit [IsStrictOrderedRing K] [FloorRing K] in
/-- Reports on several timers inside `p`. -/
theorem concat_lists {p : List String} {d : Nat} {f : String × K → Except Err (List (Line K))} : ∀ (l : List (String × K)),
    (l.map (·.1)).Nodup → l.Pairwise (fun a b => b.2 ≤ a.2) → (∀ x ∈ l, x.2 = (F.runs (p ++ [x.1])).sum) →
    (∀ x ∈ l, ∃ u o i, f x = .ok u ∧ Lists F (Under F d (p ++ [x.1])) u o ∧ Shares F (Above F d (p ++ [x.1])) u i) →
    ∃ u o i, concatM f l = .ok u ∧ Lists F (fun q => ∃ y ∈ l.map (·.1), Under F d (p ++ [y]) q) u o ∧
      Shares F (fun q => ∃ y ∈ l.map (·.1), Above F d (p ++ [y]) q) u i := by
  intro l
  induction l with
  | nil => intro _ _ _ _; exact ⟨[], [], [], rfl, Lists.nil (by simp), Shares.nil (by simp)⟩
  | cons x l ih =>
    intro hn hs ht hf
    rw [List.map_cons, List.nodup_cons] at hn
    rw [List.pairwise_cons] at hs
    obtain ⟨u, o, i, hu, ho, hi⟩ := hf x (by simp)
    obtain ⟨v, o', i', hv, ho', hi'⟩ := ih hn.2 hs.2 (fun y hy => ht y (by simp [hy])) (fun y hy => hf y (by simp [hy]))
    refine ⟨u ++ v, o ++ o', i ++ i', by rw [concatM, hu, except_bind_ok, hv, except_bind_ok], ?_, hi.append hi' hn.1⟩
    refine Lists.append ho ho' hn.1 ?_
    intro y hy
    obtain ⟨z, hz, rfl⟩ := List.mem_map.1 hy
    rw [← ht x (by simp), ← ht z (by simp [hz])]
    exact hs.1 z hz

theorem printToDepth_spec (hsort : SortSpec sort) (hk : KeysOf s keys) (ha : Accounts s F) (hw : F.Within lo hi) :
    ∀ (d : Nat) (p : List String), p ≠ [] → F.runs p ≠ [] →
    (Spent F p d → ∃ u o i, s.printToDepth sort keys d (p.length - 1) (bars (p.length - 1)) p = .ok u ∧
      Lists F (Under F d p) u o ∧ Shares F (Above F d p) u i) ∧
    (¬ Spent F p d → s.printToDepth sort keys d (p.length - 1) (bars (p.length - 1)) p = .error .ub) := by
  intro d
  induction d with
  | zero =>
    intro p hp hr
    obtain ⟨t, h1, -, h2, h3⟩ := ha.deref hp hr
    have hl : (if p.length - 1 = 0 then t.name else bars (p.length - 1) ++ "--" ++ t.name) = label p := by
      rw [label, h2]
      by_cases h : p.length ≤ 1
      · rw [if_pos h, if_pos (by omega)]
      · rw [if_neg h, if_neg (by omega)]
    refine ⟨fun _ => ⟨_, [p], [], by rw [State.printToDepth, h1, except_bind_ok, hl, h3], ?_, by simp,
      fun q => by
        simp only [List.not_mem_nil, false_iff]
        exact fun h => absurd h.1.length_le (by have := h.2.1; omega), List.Forall₂.nil⟩, fun h => ?_⟩
    · refine ⟨by simp, fun q => ?_, by simp [times], by simp, fun a c b r h => ?_⟩
      · rw [List.mem_singleton]
        constructor
        · rintro rfl
          exact ⟨List.prefix_refl _, le_rfl, hr⟩
        · rintro ⟨h4, h5, -⟩
          exact (h4.eq_of_length (le_antisymm h4.length_le h5)).symm
      · have := h.length_le
        simp at this
    · exact absurd (fun q e h4 h5 => absurd h4.length_le (by omega)) h
  | succ d ih =>
    intro p hp hr
    obtain ⟨t, h1, -, h2, h3⟩ := ha.deref hp hr
    have hl : (if p.length - 1 = 0 then t.name else bars (p.length - 1) ++ "--" ++ t.name) = label p := by
      rw [label, h2]
      by_cases h : p.length ≤ 1
      · rw [if_pos h, if_pos (by omega)]
      · rw [if_neg h, if_neg (by omega)]
    have hsubs : concatM (fun e => do
        let c ← s.deref (p ++ [e])
        .ok [(e, c.total)]) (keys p) = .ok ((keys p).map (fun e => (e, (F.runs (p ++ [e])).sum))) := by
      apply concatM_map
      intro e he
      obtain ⟨c, hc, -, -, hc2⟩ := ha.deref (p := p ++ [e]) (by simp) ((ha.mem_keys hk p e).1 he)
      rw [hc, except_bind_ok, hc2]
    generalize hS : (keys p).map (fun e => (e, (F.runs (p ++ [e])).sum)) = subs at hsubs
    have hSn : subs.map (·.1) = keys p := by rw [← hS, List.map_map]; simp [Function.comp_def]
    have hS2 : (subs.map (·.2)).sum = ((keys p).map (fun e => (F.runs (p ++ [e])).sum)).sum := by
      rw [← hS, List.map_map]; rfl
    have hSm : ∀ x ∈ subs, x.1 ∈ keys p ∧ x.2 = (F.runs (p ++ [x.1])).sum := by
      intro x hx
      rw [← hS] at hx
      obtain ⟨e, he, rfl⟩ := List.mem_map.1 hx
      exact ⟨he, rfl⟩
    have hperm := hsort.perm _ subs strictWeak_total
    have hsorted := hsort.sorted _ subs (strictWeak_total (K := K))
    have hstep : s.printToDepth sort keys (d + 1) (p.length - 1) (bars (p.length - 1)) p = (do
        let inner ← concatM (fun x => s.printToDepth sort keys d (p.length - 1 + 1) (bars (p.length - 1) ++ " |") (p ++ [x.1]))
          (sort (fun a b => decide (b.2 < a.2)) subs)
        if 0 < subs.length then do
          let q ← percentOf (subs.map (·.2)).sum (F.runs p).sum
          .ok (.time (label p) (F.runs p).sum :: (inner ++ [.percent (bars (p.length - 1) ++ " |_Subcounters [%]") q]))
        else .ok (.time (label p) (F.runs p).sum :: inner)) := by
      rw [State.printToDepth, h1, except_bind_ok, hsubs, except_bind_ok, hl, h3]
    rw [hstep]
    generalize sort (fun a b => decide (b.2 < a.2)) subs = l at hperm hsorted
    have hp1 : 0 < p.length := List.length_pos_iff.2 hp
    have hchild : ∀ x ∈ l, x.1 ∈ keys p ∧ x.2 = (F.runs (p ++ [x.1])).sum := fun x hx => hSm x (hperm.mem_iff.1 hx)
    have hf : ∀ x : String × K, s.printToDepth sort keys d (p.length - 1 + 1) (bars (p.length - 1) ++ " |") (p ++ [x.1]) =
        s.printToDepth sort keys d ((p ++ [x.1]).length - 1) (bars ((p ++ [x.1]).length - 1)) (p ++ [x.1]) := by
      intro x
      have e : (p ++ [x.1]).length - 1 = p.length - 1 + 1 := by simp; omega
      rw [e]
      rfl
    have hih := fun (x : String × K) (hx : x ∈ l) =>
      ih (p ++ [x.1]) (by simp) ((ha.mem_keys hk p x.1).1 (hchild x hx).1)
    have hsum0 : 0 ≤ ((keys p).map (fun e => (F.runs (p ++ [e])).sum)).sum := by
      apply List.sum_nonneg
      intro y hy
      obtain ⟨e, -, rfl⟩ := List.mem_map.1 hy
      exact List.sum_nonneg (hw.nonneg _)
    have hsum1 := hw.sum_le (hk p).1 p hp
    have hlen : subs.length = (keys p).length := by rw [← hSn, List.length_map]
    have hkl : ∀ e, e ∈ keys p ↔ e ∈ l.map (·.1) := by
      intro e
      rw [← hSn]
      exact ((hperm.map (·.1)).mem_iff).symm
    have hspent : Spent F p (d + 1) ↔ (keys p ≠ [] → (F.runs p).sum ≠ 0) ∧ ∀ x ∈ l, Spent F (p ++ [x.1]) d := by
      constructor
      · intro h
        refine ⟨fun hne => ?_, fun x hx q e hq hql => h q e ((List.prefix_append _ _).trans hq) ?_⟩
        · obtain ⟨e, he⟩ := List.exists_mem_of_ne_nil _ hne
          exact h p e (List.prefix_refl _) (by omega) ((ha.mem_keys hk p e).1 he)
        · simp only [List.length_append, List.length_singleton] at hql
          omega
      · rintro ⟨g1, g2⟩ q e ⟨u, rfl⟩ hql hqe
        cases u with
        | nil =>
          rw [List.append_nil] at hqe ⊢
          exact g1 (List.ne_nil_of_mem ((ha.mem_keys hk p e).2 hqe))
        | cons y u =>
          have hy : ∀ u' : List String, F.runs (p ++ y :: u') ≠ [] → F.runs (p ++ [y]) ≠ [] := by
            intro u'
            induction u' using List.reverseRecOn with
            | nil => exact id
            | append_singleton u' z ihu =>
              intro h
              exact ihu (F.runs_parent (p := p ++ y :: u') (e := z) (by simp) (by simpa using h))
          have hyk := (ha.mem_keys hk p y).2 (hy (u ++ [e]) (by simpa using hqe))
          obtain ⟨x, hx, rfl⟩ := List.mem_map.1 ((hkl y).1 hyk)
          refine g2 x hx _ e ⟨u, by simp⟩ ?_ hqe
          simp only [List.length_append, List.length_cons, List.length_nil] at hql ⊢
          omega
    constructor
    · intro hsp
      rw [hspent] at hsp
      obtain ⟨u, o, i, hu, ho, hi⟩ := concat_lists (F := F) (p := p) (d := d)
        (f := fun x => s.printToDepth sort keys d (p.length - 1 + 1) (bars (p.length - 1) ++ " |") (p ++ [x.1])) l
        (((hperm.map (·.1)).nodup_iff).2 (by rw [hSn]; exact (hk p).1))
        (hsorted.imp (fun h => by simpa using h)) (fun x hx => (hchild x hx).2)
        (fun x hx => by
          obtain ⟨u, o, i, h4, h5⟩ := (hih x hx).1 (hsp.2 x hx)
          exact ⟨u, o, i, (hf x).trans h4, h5⟩)
      have hy : ∀ (y : String) (u' : List String), F.runs (p ++ [y] ++ u') ≠ [] → y ∈ l.map (·.1) := by
        intro y u'
        induction u' using List.reverseRecOn with
        | nil => intro h; exact (hkl y).1 ((ha.mem_keys hk p y).2 (by simpa using h))
        | append_singleton u' z ihu =>
          intro h
          exact ihu (F.runs_parent (p := p ++ [y] ++ u') (e := z) (by simp) (by simpa using h))
      have hall : ∀ q, (∃ y, Under F d (p ++ [y]) q) → ∃ y ∈ l.map (·.1), Under F d (p ++ [y]) q := by
        rintro q ⟨y, ⟨v, rfl⟩, h5, h6⟩
        exact ⟨y, hy y v h6, ⟨v, rfl⟩, h5, h6⟩
      have hall' : ∀ q, (∃ y, Above F d (p ++ [y]) q) → ∃ y ∈ l.map (·.1), Above F d (p ++ [y]) q := by
        rintro q ⟨y, ⟨v, rfl⟩, h5, e, h6⟩
        exact ⟨y, hy y (v ++ [e]) (by simpa using h6), ⟨v, rfl⟩, h5, e, h6⟩
      rw [hu, except_bind_ok]
      by_cases hs0 : 0 < subs.length
      · have hkn : keys p ≠ [] := by
          rw [← List.length_pos_iff]
          omega
        obtain ⟨v, hv, hv0, hv1, hv2⟩ := percentOf_ok hsum0 hsum1 (hsp.1 hkn)
        rw [if_pos hs0, hS2, hv, except_bind_ok]
        obtain ⟨e, he⟩ := List.exists_mem_of_ne_nil _ hkn
        exact ⟨_, p :: o, i ++ [p], rfl, Lists.cons hr ho hall rfl,
          hi.snoc rfl ⟨e, (ha.mem_keys hk p e).1 he⟩ hall' ⟨rfl, hv0, hv1, keys p, (hk p).1, ha.mem_keys hk p, hv2⟩⟩
      · rw [if_neg hs0]
        have hk0 : keys p = [] := List.length_eq_zero_iff.1 (by omega)
        have hl0 : l.map (·.1) = [] := List.eq_nil_iff_forall_not_mem.2 fun e he => by
          have := (hkl e).2 he
          rw [hk0] at this
          cases this
        refine ⟨_, p :: o, i, rfl, ?_, hi.nodup, fun q => ?_, hi.all⟩
        · have := Lists.cons (w := []) hr ho hall rfl
          rwa [List.append_nil] at this
        · rw [hi.mem]
          constructor
          · rintro ⟨y, hy', -⟩
            rw [hl0] at hy'
            cases hy'
          · rintro ⟨⟨u', rfl⟩, -, e, he⟩
            have : ∃ y v, u' ++ [e] = y :: v := by cases u' <;> simp
            obtain ⟨y, v, hv⟩ := this
            have := hy y v (by
              rw [List.append_assoc, hv] at he
              simpa using he)
            rw [hl0] at this
            cases this
    · intro hsp
      rw [hspent, not_and_or] at hsp
      have hor : ∀ x ∈ l, (∃ u, s.printToDepth sort keys d (p.length - 1 + 1) (bars (p.length - 1) ++ " |") (p ++ [x.1]) = .ok u) ∨
          s.printToDepth sort keys d (p.length - 1 + 1) (bars (p.length - 1) ++ " |") (p ++ [x.1]) = .error .ub := by
        intro x hx
        by_cases h : Spent F (p ++ [x.1]) d
        · obtain ⟨u, o, i, h4, -⟩ := (hih x hx).1 h
          exact Or.inl ⟨u, (hf x).trans h4⟩
        · exact Or.inr ((hf x).trans ((hih x hx).2 h))
      by_cases hbad : ∀ x ∈ l, Spent F (p ++ [x.1]) d
      · rcases hsp with hsp | hsp
        · push Not at hsp
          obtain ⟨u, o, i, hu, -⟩ := concat_lists (F := F) (p := p) (d := d)
            (f := fun x => s.printToDepth sort keys d (p.length - 1 + 1) (bars (p.length - 1) ++ " |") (p ++ [x.1])) l
            (((hperm.map (·.1)).nodup_iff).2 (by rw [hSn]; exact (hk p).1))
            (hsorted.imp (fun h => by simpa using h)) (fun x hx => (hchild x hx).2)
            (fun x hx => by
              obtain ⟨u, o, i, h4, h5⟩ := (hih x hx).1 (hbad x hx)
              exact ⟨u, o, i, (hf x).trans h4, h5⟩)
          have hs0 : 0 < subs.length := by
            have := List.length_pos_iff.2 hsp.1
            omega
          rw [hu, except_bind_ok, if_pos hs0, percentOf, if_pos hsp.2]
          rfl
        · exact absurd hbad hsp
      · push Not at hbad
        obtain ⟨x, hx, hxs⟩ := hbad
        rw [concatM_error hor ⟨x, hx, (hf x).trans ((hih x hx).2 hxs)⟩]
        rfl

/-- C64.  After a well-nested history with a clock that never goes back, `printTime` of a
timer that was used prints a report of it (`IsReport`), whatever `std::sort` does with
equal times, if none of the timers with others inside of them took no time at all
(`TimeSpent`).  Otherwise it divides by zero and converts the result to an integer. -/
theorem C64_report (hsort : SortSpec sort) (g : Globals) (hg : g.get "FRANK_DISABLE_TIMER" ≠ "1") (F : History K) {lo hi : K}
    (hw : F.Within lo hi) (event : String) (he : F.runs [event] ≠ []) (depth : Int) :
    ∃ s, run g State.init F.calls = .ok s ∧ ∀ keys, KeysOf s keys →
      (TimeSpent F event depth.toNat →
        ∃ lines, printTime sort keys s event depth = .ok lines ∧ IsReport F event depth.toNat lines) ∧
      (¬ TimeSpent F event depth.toNat → printTime sort keys s event depth = .error .ub) := by
  have hg0 := hg
  replace hg := enabled_of hg
  obtain ⟨s, h1, h2, h0⟩ := accounts_of_clean g hg F (s := State.init) rfl ⟨_, by simp [State.init]; rfl⟩
    (fun p hp => by simp [State.init, hp])
  refine ⟨s, h1, fun keys hk => ?_⟩
  obtain ⟨t, e1, e2, -⟩ := (h2.2 [event] (by simp)).2 he
  have e0 : s.timers [] = some (Timer.new "" none) := by rw [h0]; simp [State.init]
  have hpt : printTime sort keys s event depth = s.printToDepth sort keys depth.toNat 0 "" [event] := by
    simp [printTime, State.deref, h2.1, e0, State.sub, e1, assertM, e2]
  have hsp : Spent F [event] depth.toNat ↔ TimeSpent F event depth.toNat := by
    constructor
    · exact fun h q e h1 h2 => h q e h1 (by simp; omega)
    · exact fun h q e h1 h2 => h q e h1 (by simp at h2; omega)
  obtain ⟨k1, k2⟩ := printToDepth_spec hsort hk h2 hw depth.toNat [event] (by simp) he
  rw [hpt, ← hsp]
  refine ⟨fun h => ?_, k2⟩
  obtain ⟨u, o, i, hu, ho, hi⟩ := k1 h
  refine ⟨u, hu, ⟨o, ho.nodup, fun q => ?_, ho.times, ho.sorted, ho.together⟩, i, hi.nodup, fun q => ?_, hi.all⟩
  · rw [ho.mem, Under]
    simp [Nat.add_comm]
  · rw [hi.mem, Above]
    simp [Nat.add_comm]

/-- C64.  `stopAndPrint` stops the running timer and prints the report on the history that
this completes. -/
theorem C64_stop_and_print (hsort : SortSpec sort) (g : Globals) (hg : g.get "FRANK_DISABLE_TIMER" ≠ "1") (F I : History K)
    (event : String) (t0 t1 : K) {lo hi : K} (hw : (F.append (.span event t0 t1 I .done)).Within lo hi) (depth : Int)
    (hs : TimeSpent (F.append (.span event t0 t1 I .done)) event depth.toNat) :
    ∃ s s', run g State.init (F.calls ++ .start event t0 :: I.calls) = .ok s ∧ s'.current = [] ∧
      ∀ keys, KeysOf s' keys → ∃ lines, stopAndPrint sort keys g event t1 depth s = .ok (lines, s') ∧
        IsReport (F.append (.span event t0 t1 I .done)) event depth.toNat lines := by
  have hg0 := hg
  replace hg := enabled_of hg
  have hc : ∀ (A B : History K), (A.append B).calls = A.calls ++ B.calls := by
    intro A B
    induction A with
    | done => rfl
    | span n u0 u1 i r _ ih => simp [History.append, History.calls, ih]
  have hr : ∀ (A B : History K) (p : List String), (A.append B).runs p = A.runs p ++ B.runs p := by
    intro A B p
    induction A with
    | done => rfl
    | span n u0 u1 i r _ ih => simp [History.append, History.runs, ih]
  have he : (F.append (.span event t0 t1 I .done)).runs [event] ≠ [] := by
    rw [hr]
    simp [History.runs]
  obtain ⟨s', h1, h2⟩ := C64_report hsort g hg0 _ hw event he depth
  obtain ⟨s'', h1', h3, -⟩ := C40_accounts g hg0 (F.append (.span event t0 t1 I .done))
  obtain rfl : s' = s'' := Except.ok.inj (h1.symm.trans h1')
  have e : (F.append (.span event t0 t1 I .done)).calls =
      (F.calls ++ .start event t0 :: I.calls) ++ [.stop event t1] := by
    rw [hc]
    simp [History.calls]
  rw [e, run_append, except_bind_eq_ok] at h1
  obtain ⟨s, k1, k2⟩ := h1
  refine ⟨s, s', k1, h3, fun keys hk => ?_⟩
  obtain ⟨lines, l1, l2⟩ := (h2 keys hk).1 hs
  refine ⟨lines, ?_, l2⟩
  simp only [run, step] at k2
  rw [except_bind_eq_ok] at k2
  obtain ⟨s1, k2, k3⟩ := k2
  cases Except.ok.inj k3
  rw [except_bind_eq_ok] at k2
  obtain ⟨r, k2, k3⟩ := k2
  cases Except.ok.inj k3
  rw [stopAndPrint, if_pos hg, k2, except_bind_ok, l1, except_bind_ok]

omit [IsStrictOrderedRing K] in
/-- C64.  Asking for the report on a timer that was never used violates the assertion. -/
theorem C64_unknown (g : Globals) (hg : g.get "FRANK_DISABLE_TIMER" ≠ "1") (F : History K) (event : String) (he : F.runs [event] = [])
    (depth : Int) :
    ∃ s, run g State.init F.calls = .ok s ∧ ∀ keys, printTime sort keys s event depth = .error .assertFail := by
  have hg0 := hg
  replace hg := enabled_of hg
  obtain ⟨s, h1, h2, h0⟩ := accounts_of_clean g hg F (s := State.init) rfl ⟨_, by simp [State.init]; rfl⟩
    (fun p hp => by simp [State.init, hp])
  refine ⟨s, h1, fun keys => ?_⟩
  have e0 : s.timers [] = some (Timer.new "" none) := by rw [h0]; simp [State.init]
  have e1 := (h2.2 [event] (by simp)).1 he
  simp [printTime, State.deref, h2.1, e0, State.sub, e1, assertM]

end

section
variable {T : Type _} [AddCommGroup T]

/-- C64.  `get_subtimers` of the timer at `p` holds the names of the spans that occurred
directly inside, with their total times, and nothing else. -/
theorem C64_subtimers (g : Globals) (hg : g.get "FRANK_DISABLE_TIMER" ≠ "1") (F : History T) :
    ∃ s, run g State.init F.calls = .ok s ∧ ∀ p e,
      s.getSubtimers p e = if F.runs (p ++ [e]) = [] then none else some (F.runs (p ++ [e])).sum := by
  have hg0 := hg
  replace hg := enabled_of hg
  obtain ⟨s, h1, h2⟩ := C40_accounts g hg0 F
  refine ⟨s, h1, fun p e => ?_⟩
  by_cases h : F.runs (p ++ [e]) = []
  · rw [if_pos h, State.getSubtimers, (h2.2 _ (by simp)).1 h]
    rfl
  · obtain ⟨t, e1, -, -, e4, -⟩ := (h2.2 _ (by simp)).2 h
    rw [if_neg h, State.getSubtimers, e1, ← e4]
    rfl

/-- Only finitely many timers exist. -/
def State.Finite (s : State T) : Prop := ∃ L : List (List String), ∀ p t, s.timers p = some t → p ∈ L

omit [AddCommGroup T] in
theorem State.Finite.put {s : State T} (h : s.Finite) (p : List String) (t : Timer T) : (s.put p t).Finite := by
  obtain ⟨L, hL⟩ := h
  refine ⟨p :: L, fun q t' hq => ?_⟩
  simp only [State.put] at hq
  split at hq
  · rename_i e; rw [e]; simp
  · exact List.mem_cons_of_mem _ (hL q t' hq)

theorem step_finite {g : Globals} {s s' : State T} {c : Call T} (h : s.Finite) (hs : step g s c = .ok s') : s'.Finite := by
  cases c with
  | start e t =>
    rw [step, start] at hs
    split at hs
    · rw [except_bind_eq_ok] at hs
      obtain ⟨_, -, hs⟩ := hs
      rw [except_bind_eq_ok] at hs
      obtain ⟨s1, h1, hs⟩ := hs
      rw [except_bind_eq_ok] at hs
      obtain ⟨_, -, hs⟩ := hs
      rw [State.startSubtimer, except_bind_eq_ok] at h1
      obtain ⟨t1, -, h1⟩ := h1
      cases Except.ok.inj h1
      cases Except.ok.inj hs
      exact h.put _ t1
    · cases Except.ok.inj hs
      exact h
  | stop e t =>
    rw [step, except_bind_eq_ok] at hs
    obtain ⟨r, h1, hs⟩ := hs
    cases Except.ok.inj hs
    rw [stop] at h1
    split at h1
    · rw [except_bind_eq_ok] at h1
      obtain ⟨_, -, h1⟩ := h1
      rw [except_bind_eq_ok] at h1
      obtain ⟨_, -, h1⟩ := h1
      rw [except_bind_eq_ok] at h1
      obtain ⟨x, -, h1⟩ := h1
      cases Except.ok.inj h1
      exact h.put _ x.2
    · cases Except.ok.inj h1
      exact h
  | clear =>
    rw [step, clearTimers, except_bind_eq_ok] at hs
    obtain ⟨_, -, hs⟩ := hs
    rw [except_bind_eq_ok] at hs
    obtain ⟨_, -, hs⟩ := hs
    rw [except_bind_eq_ok] at hs
    obtain ⟨_, -, hs⟩ := hs
    cases Except.ok.inj hs
    refine ⟨[[]], fun p t hp => ?_⟩
    simp only at hp
    split at hp
    · rename_i e; simp [e]
    · cases hp

/-- C64.  In every state reached the maps of subtimers are finite: their keys can be
listed. -/
theorem C64_keys (g : Globals) (l : List (Call T)) (s : State T) (h : run g State.init l = .ok s) :
    ∃ keys, KeysOf s keys := by
  have hf : s.Finite := by
    have : ∀ (l : List (Call T)) (s s' : State T), s.Finite → run g s l = .ok s' → s'.Finite := by
      intro l
      induction l with
      | nil => intro s s' hs hr; cases Except.ok.inj hr; exact hs
      | cons c l ih =>
        intro s s' hs hr
        rw [run, except_bind_eq_ok] at hr
        obtain ⟨s1, h1, hr⟩ := hr
        exact ih s1 s' (step_finite hs h1) hr
    refine this l _ _ ⟨[[]], fun p t hp => ?_⟩ h
    simp only [State.init] at hp
    split at hp
    · rename_i e; simp [e]
    · cases hp
  obtain ⟨L, hL⟩ := hf
  refine ⟨fun p => (((L.filter fun q => (s.timers q).isSome && decide (q = p ++ [q.getLastD ""])).map
    (·.getLastD "")).dedup), fun p => ⟨List.nodup_dedup _, fun e => ?_⟩⟩
  rw [List.mem_dedup, List.mem_map]
  constructor
  · rintro ⟨q, hq, rfl⟩
    rw [List.mem_filter, Bool.and_eq_true, decide_eq_true_eq] at hq
    rw [← hq.2.2]
    exact Option.isSome_iff_exists.1 hq.2.1
  · rintro ⟨t, ht⟩
    refine ⟨p ++ [e], ?_, by simp⟩
    rw [List.mem_filter, Bool.and_eq_true, decide_eq_true_eq, ht]
    exact ⟨hL _ _ ht, rfl, by simp⟩

end

/-! ### Examples -/

section Examples

/-- `a` from 0 to 10 with `b` from 2 to 5 and `c` from 5 to 9 inside, then `a` again from
20 to 30. -/
def reportHistory : History ℚ :=
  .span "a" 0 10 (.span "b" 2 5 .done (.span "c" 5 9 .done .done)) (.span "a" 20 30 .done .done)

theorem reportHistory_inner (q : List String) (e : String) (h : reportHistory.runs (q ++ [e]) ≠ []) (hq : ["a"] <+: q) :
    q = ["a"] := by
  obtain ⟨u, rfl⟩ := hq
  match u with
  | [] => rfl
  | x :: u => exfalso; cases u <;> simp [reportHistory, History.runs] at h

/-- The hypotheses of `C64_report` hold for this history, down to any depth. -/
example : (Globals.init fun _ => none).get "FRANK_DISABLE_TIMER" ≠ "1" ∧ reportHistory.Within 0 30 ∧ reportHistory.runs ["a"] ≠ [] ∧
    ∀ d, TimeSpent reportHistory "a" d := by
  refine ⟨by decide, by simp [reportHistory, History.Within]; norm_num, by simp [reportHistory, History.runs],
    fun d q e h1 _ h3 => ?_⟩
  rw [reportHistory_inner q e h3 h1]
  simp [reportHistory, History.runs]
  norm_num

/-- The hypothesis on the sorting routine can be met. -/
example : SortSpec (α := String × ℚ) fun lt l => l.mergeSort fun a b => !lt b a := mergeSort_sortSpec

/-- The report: `a` took 20, of which `c` took 4 and `b` 3. -/
example : (do
    let s ← run (Globals.init fun _ => none) State.init reportHistory.calls
    let l ← printTime (fun lt l => l.insertionSort fun a b => lt b a = false) (fun p => if p = ["a"] then ["b", "c"] else []) s "a" 1
    .ok (times l, percents l)) =
    .ok ([("a", 20), (" |--c", 4), (" |--b", 3)], [(" |_Subcounters [%]", 35)]) := by
  decide +kernel

/-- C64.  A clock that has not advanced: the report on a timer with another one inside
divides zero by zero and converts the result to an integer. -/
theorem C64_no_time_fails {K : Type _} [Field K] [LinearOrder K] [IsStrictOrderedRing K] [FloorRing K]
    {sort : (String × K → String × K → Bool) → List (String × K) → List (String × K)} (hsort : SortSpec sort)
    (g : Globals) (hg : g.get "FRANK_DISABLE_TIMER" ≠ "1") (a b : String) (t : K) (depth : Int) (hd : 0 < depth) :
    ∃ s, run g State.init [.start a t, .start b t, .stop b t, .stop a t] = .ok s ∧
      ∀ keys, KeysOf s keys → printTime sort keys s a depth = .error .ub := by
  have hg0 := hg
  replace hg := enabled_of hg
  obtain ⟨s, h1, h2⟩ := C64_report hsort g hg0 (.span a t t (.span b t t .done .done) .done) (lo := t) (hi := t)
    ⟨le_rfl, ⟨le_rfl, le_rfl, le_rfl⟩, le_rfl⟩ a (by simp [History.runs]) depth
  refine ⟨s, h1, fun keys hk => (h2 keys hk).2 fun h => ?_⟩
  exact h [a] b (List.prefix_refl _) (by simp; omega) (by simp [History.runs]) (by simp [History.runs])

end Examples

end Timing

end Verif
