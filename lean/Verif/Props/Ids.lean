import Verif.Model.Ids
import Verif.Props.Heap
import Mathlib.Tactic.Ring

/-
Ids of dense matrices (C68).
-/

namespace Verif

variable {R : Type} [Zero R]

/-! ### what one operation does to the objects and their ids -/

/-- Where an object with its id after an operation comes from. -/
private def Origin (m m' : IdMem R) (o' : Nat) (d' : DObj) (t : Option Nat) : Prop :=
  (t = none ∧ d'.data = none) ∨
  (∃ (o : Nat) (d : DObj), m.mem.objs[o]? = some d ∧ m.ids[o]? = some t ∧ (d' = d ∨ d' = d.movedFrom)) ∨
  (∃ k, t = some k ∧ m.next ≤ k ∧ k < m'.next ∧ ∀ o'' : Nat, m'.ids[o'']? = some (some k) → o'' = o')

private structure IdInv (m : IdMem R) : Prop where
  len : m.ids.length = m.mem.objs.length
  lt : ∀ (o k : Nat), m.ids[o]? = some (some k) → k < m.next
  same : ∀ (o o' k : Nat) (d d' : DObj), m.ids[o]? = some (some k) → m.ids[o']? = some (some k) →
    m.mem.objs[o]? = some d → m.mem.objs[o']? = some d' →
      d.movedFrom = d'.movedFrom ∧ (d.data = none ∨ d'.data = none ∨ d.data = d'.data)
  own : ∀ (o : Nat) (d : DObj), m.ids[o]? = some none → m.mem.objs[o]? = some d → d.data = none

omit [Zero R] in
private theorem IdInv.of_origin {m m' : IdMem R} (hm : IdInv m) (hlen : m'.ids.length = m'.mem.objs.length)
    (hnext : m.next ≤ m'.next)
    (hor : ∀ (o' : Nat) (d' : DObj) (t : Option Nat), m'.mem.objs[o']? = some d' → m'.ids[o']? = some t → Origin m m' o' d' t) : IdInv m' := by
  have hobj : ∀ {o' : Nat} {t : Option Nat}, m'.ids[o']? = some t → ∃ d' : DObj, m'.mem.objs[o']? = some d' := by
    intro o' t h
    have : o' < m'.ids.length := by
      by_contra hn
      rw [List.getElem?_eq_none (by omega)] at h; cases h
    exact ⟨_, List.getElem?_eq_getElem (by omega)⟩
  have mv : ∀ {d d' : DObj}, (d' = d ∨ d' = d.movedFrom) →
      d'.movedFrom = d.movedFrom ∧ (d'.data = none ∨ d'.data = d.data) := by
    rintro d d' (rfl | rfl)
    · exact ⟨rfl, .inr rfl⟩
    · exact ⟨rfl, .inl rfl⟩
  refine ⟨hlen, ?_, ?_, ?_⟩
  · intro o k h
    obtain ⟨d', hd⟩ := hobj h
    rcases hor o d' _ hd h with ⟨h1, -⟩ | ⟨o1, d1, -, h2, -⟩ | ⟨k1, h1, -, h3, -⟩
    · cases h1
    · exact lt_of_lt_of_le (hm.lt _ _ h2) hnext
    · cases h1; exact h3
  · intro o o' k d d' ho ho' hd hd'
    rcases hor o d _ hd ho with ⟨h1, -⟩ | ⟨o1, d1, g1, g2, g3⟩ | ⟨k1, h1, h2, h3, h4⟩
    · cases h1
    · rcases hor o' d' _ hd' ho' with ⟨h1, -⟩ | ⟨o2, d2, f1, f2, f3⟩ | ⟨k1, h1, h2, h3, h4⟩
      · cases h1
      · obtain ⟨e1, e2⟩ := hm.same _ _ _ _ _ g2 f2 g1 f1
        obtain ⟨a1, a2⟩ := mv g3
        obtain ⟨b1, b2⟩ := mv f3
        refine ⟨by rw [a1, b1, e1], ?_⟩
        rcases a2 with a2 | a2
        · exact Or.inl a2
        · rcases b2 with b2 | b2
          · exact Or.inr (.inl b2)
          · rw [a2, b2]; exact e2
      · cases h1
        have := hm.lt _ _ g2
        omega
    · cases h1
      obtain rfl := h4 _ ho'
      rw [hd] at hd'
      cases hd'
      exact ⟨rfl, .inr (.inr rfl)⟩
  · intro o d ho hd
    rcases hor o d _ hd ho with ⟨-, h1⟩ | ⟨o1, d1, g1, g2, g3⟩ | ⟨k1, h1, -⟩
    · exact h1
    · have := hm.own _ _ g2 g1
      rcases g3 with rfl | rfl
      · exact this
      · rfl
    · cases h1

private theorem splitCopyAll_length (d : DObj) : ∀ (l : List ((Nat × Nat) × (Nat × Nat))) (h : Heap R) {x},
    d.splitCopyAll h l = .ok x → x.2.length = l.length := by
  intro l
  induction l with
  | nil => intro h x hx; cases Except.ok.inj hx; rfl
  | cons a t ih =>
    intro h x hx
    rw [DObj.splitCopyAll] at hx
    obtain ⟨y, -, hx⟩ := except_bind_eq_ok.1 hx
    obtain ⟨z, hz, hx⟩ := except_bind_eq_ok.1 hx
    cases Except.ok.inj hx
    simpa using ih _ hz

private theorem pairs_length {α β : Type _} (f : α → α → β) (rs cs : List α) :
    (rs.flatMap (fun r => cs.map (fun c => f r c))).length = rs.length * cs.length := by
  induction rs with
  | nil => simp
  | cons a t ih => rw [List.flatMap_cons, List.length_append, ih]; simp; ring

omit [Zero R] in
/-- Old objects keep their ids, new ones come behind them. -/
private theorem origin_append {m m' : IdMem R} (hm : IdInv m) {l : List DObj} {ts : List (Option Nat)}
    (ho : m'.mem.objs = m.mem.objs ++ l) (hi : m'.ids = m.ids ++ ts)
    (hnew : ∀ (p : Nat) (d' : DObj) (t : Option Nat), l[p]? = some d' → ts[p]? = some t → Origin m m' (m.mem.objs.length + p) d' t) :
    ∀ (o' : Nat) (d' : DObj) (t : Option Nat), m'.mem.objs[o']? = some d' → m'.ids[o']? = some t → Origin m m' o' d' t := by
  intro o' d' t h1 h2
  rw [ho] at h1
  rw [hi] at h2
  by_cases h : o' < m.mem.objs.length
  · rw [List.getElem?_append_left h] at h1
    rw [List.getElem?_append_left (by rw [hm.len]; exact h)] at h2
    exact Or.inr (.inl ⟨o', d', h1, h2, .inl rfl⟩)
  · rw [List.getElem?_append_right (by omega)] at h1
    rw [List.getElem?_append_right (by rw [hm.len]; omega), hm.len] at h2
    have := hnew _ _ _ h1 h2
    rwa [show m.mem.objs.length + (o' - m.mem.objs.length) = o' by omega] at this

private theorem drawIds_getElem? {next n p : Nat} {t : Option Nat} (h : (drawIds next n)[p]? = some t) :
    p < n ∧ t = some (next + p) := by
  have hp : p < n := by
    by_contra hn
    rw [List.getElem?_eq_none (by simp [drawIds]; omega)] at h; cases h
  refine ⟨hp, ?_⟩
  simp [drawIds, hp] at h
  exact h.symm

omit [Zero R] in
/-- New objects with new ids. -/
private theorem origin_draw {m m' : IdMem R} (hm : IdInv m) {l : List DObj} {n : Nat} (hl : l.length = n)
    (ho : m'.mem.objs = m.mem.objs ++ l) (hi : m'.ids = m.ids ++ drawIds m.next n) (hn : m'.next = m.next + n) :
    IdInv m' := by
  refine hm.of_origin (by rw [ho, hi, List.length_append, List.length_append, hm.len, hl]; simp [drawIds]) (by omega)
    (origin_append hm ho hi ?_)
  intro p d' t h1 h2
  obtain ⟨hp, rfl⟩ := drawIds_getElem? h2
  refine Or.inr (Or.inr ⟨_, rfl, by omega, by omega, ?_⟩)
  intro o'' h
  rw [hi] at h
  by_cases hlt : o'' < m.ids.length
  · rw [List.getElem?_append_left hlt] at h
    have := hm.lt _ _ h
    omega
  · rw [List.getElem?_append_right (by omega)] at h
    obtain ⟨-, h⟩ := drawIds_getElem? h
    have := hm.len
    have h := Option.some.inj h
    omega

private theorem getD_of_lt {l : List (Option Nat)} {o : Nat} (h : o < l.length) : l[o]? = some (l.getD o none) := by
  rw [List.getD_eq_getElem?_getD, List.getElem?_eq_getElem h]; rfl

private theorem lt_of_some {α : Type _} {l : List α} {i : Nat} {a : α} (h : l[i]? = some a) : i < l.length := by
  by_contra hn
  rw [List.getElem?_eq_none (by omega)] at h; cases h

/-- One operation. -/
private theorem IdInv.step {m m' : IdMem R} (hm : IdInv m) {op : MemOp R} (hs : m.step op = .ok m') : IdInv m' := by
  obtain ⟨mm, hmm, hs⟩ := except_bind_eq_ok.1 hs
  cases Except.ok.inj hs
  have same : ∀ h : Heap R, IdInv (⟨⟨h, m.mem.objs⟩, m.ids, m.next⟩ : IdMem R) :=
    fun h => ⟨hm.len, hm.lt, hm.same, hm.own⟩
  cases op with
  | default =>
    cases Except.ok.inj hmm
    refine hm.of_origin (by simp [idsAfter, hm.len]) le_rfl (origin_append hm rfl rfl ?_)
    intro p d' t h1 h2
    cases p with
    | zero => cases h1; cases h2; exact Or.inl ⟨rfl, rfl⟩
    | succ p => cases h1
  | new r c =>
    cases Except.ok.inj hmm
    exact origin_draw hm (n := 1) (l := [_]) rfl rfl rfl rfl
  | copy o =>
    simp only [Mem.step] at hmm
    split at hmm
    · cases hmm
    · obtain ⟨x, -, hmm⟩ := except_bind_eq_ok.1 hmm
      cases Except.ok.inj hmm
      exact origin_draw hm (n := 1) (l := [_]) rfl rfl rfl rfl
  | assign o a =>
    have key : ∀ (h : Heap R) (e d : DObj), m.mem.objs[o]? = some e →
        IdInv (⟨⟨h, m.mem.objs.set o d⟩, m.ids.set o (some m.next), m.next + 1⟩ : IdMem R) := by
      intro h e d he
      refine hm.of_origin (by simp [hm.len]) (Nat.le_succ _) ?_
      intro o' d' t h1 h2
      have hl := lt_of_some he
      have hl' := hm.len ▸ hl
      by_cases hoo : o = o'
      · subst hoo
        rw [List.getElem?_set_self hl] at h1
        rw [List.getElem?_set_self hl'] at h2
        cases h1; cases h2
        refine Or.inr (Or.inr ⟨_, rfl, le_rfl, Nat.lt_succ_self _, ?_⟩)
        intro o'' h
        by_contra hne
        rw [List.getElem?_set_ne (by omega)] at h
        exact absurd (hm.lt _ _ h) (lt_irrefl _)
      · rw [List.getElem?_set_ne hoo] at h1 h2
        exact Or.inr (.inl ⟨o', d', h1, h2, .inl rfl⟩)
    simp only [Mem.step] at hmm
    split at hmm
    · rename_i e d he hd
      split at hmm
      · obtain ⟨x, -, hmm⟩ := except_bind_eq_ok.1 hmm
        cases Except.ok.inj hmm
        exact key _ _ _ he
      · obtain ⟨x, -, hmm⟩ := except_bind_eq_ok.1 hmm
        cases Except.ok.inj hmm
        exact key _ _ _ he
    · cases hmm
  | shallow o =>
    simp only [Mem.step] at hmm
    split at hmm
    · cases hmm
    · rename_i d hd
      cases Except.ok.inj hmm
      refine hm.of_origin (by simp [idsAfter, hm.len]) le_rfl (origin_append hm rfl rfl ?_)
      intro p d' t h1 h2
      cases p with
      | zero =>
        cases h1; cases h2
        exact Or.inr (.inl ⟨o, d, hd, getD_of_lt (hm.len ▸ lt_of_some hd), .inl rfl⟩)
      | succ p => cases h1
  | splitView o rs cs =>
    simp only [Mem.step] at hmm
    split at hmm
    · cases hmm
    · obtain ⟨x, hx, hmm⟩ := except_bind_eq_ok.1 hmm
      cases Except.ok.inj hmm
      unfold DObj.splitView at hx
      split at hx
      · cases hx
      · cases Except.ok.inj hx
        exact origin_draw hm (pairs_length _ rs cs) rfl rfl rfl
  | splitCopy o rs cs =>
    simp only [Mem.step] at hmm
    split at hmm
    · cases hmm
    · obtain ⟨x, hx, hmm⟩ := except_bind_eq_ok.1 hmm
      cases Except.ok.inj hmm
      exact origin_draw hm ((splitCopyAll_length _ _ _ hx).trans (pairs_length (fun r c => (r, c)) rs cs)) rfl rfl rfl
  | moveCtor o =>
    simp only [Mem.step] at hmm
    split at hmm
    · cases hmm
    · rename_i d hd
      cases Except.ok.inj hmm
      refine hm.of_origin (by simp [idsAfter, hm.len]) le_rfl ?_
      intro o' d' t h1 h2
      have hl := lt_of_some hd
      have hl' := hm.len ▸ hl
      simp only [idsAfter] at h2
      by_cases h : o' < m.mem.objs.length
      · rw [List.getElem?_append_left (by simpa using h)] at h1
        rw [List.getElem?_append_left (by rw [hm.len]; exact h)] at h2
        by_cases hoo : o = o'
        · subst hoo
          rw [List.getElem?_set_self hl] at h1
          cases h1
          exact Or.inr (.inl ⟨o, d, hd, h2, .inr rfl⟩)
        · rw [List.getElem?_set_ne hoo] at h1
          exact Or.inr (.inl ⟨o', d', h1, h2, .inl rfl⟩)
      · rw [List.getElem?_append_right (by simp; omega)] at h1
        rw [List.getElem?_append_right (by rw [hm.len]; omega), hm.len] at h2
        rw [List.length_set] at h1
        cases hp : o' - m.mem.objs.length with
        | zero =>
          rw [hp] at h1 h2
          cases h1; cases h2
          exact Or.inr (.inl ⟨o, d, hd, getD_of_lt hl', .inl rfl⟩)
        | succ p => rw [hp] at h1; cases h1
  | moveAssign o a =>
    simp only [Mem.step] at hmm
    split at hmm
    · rename_i e d he hd
      have hl := lt_of_some he
      have hl' := hm.len ▸ hl
      have ha := lt_of_some hd
      have ha' := hm.len ▸ ha
      split at hmm
      · rename_i hoa
        subst hoa
        cases Except.ok.inj hmm
        have : m.ids.set o (m.ids.getD o none) = m.ids := by
          apply List.ext_getElem?
          intro i
          by_cases hi : o = i
          · subst hi; rw [List.getElem?_set_self hl', getD_of_lt hl']
          · rw [List.getElem?_set_ne hi]
        simp only [idsAfter, this]
        exact ⟨hm.len, hm.lt, hm.same, hm.own⟩
      · rename_i hoa
        cases Except.ok.inj hmm
        refine hm.of_origin (by simp [idsAfter, hm.len]) le_rfl ?_
        intro o' d' t h1 h2
        simp only [idsAfter] at h2
        by_cases h : a = o'
        · subst h
          rw [List.getElem?_set_self (by simpa using ha)] at h1
          rw [List.getElem?_set_ne hoa] at h2
          cases h1
          exact Or.inr (.inl ⟨a, d, hd, h2, .inr rfl⟩)
        · rw [List.getElem?_set_ne h] at h1
          by_cases hoo : o = o'
          · subst hoo
            rw [List.getElem?_set_self hl] at h1
            rw [List.getElem?_set_self hl'] at h2
            cases h1; cases h2
            exact Or.inr (.inl ⟨a, d, hd, getD_of_lt ha', .inl rfl⟩)
          · rw [List.getElem?_set_ne hoo] at h1 h2
            exact Or.inr (.inl ⟨o', d', h1, h2, .inl rfl⟩)
    · cases hmm
  | destroy o =>
    simp only [Mem.step] at hmm
    split at hmm
    · cases hmm
    · rename_i d hd
      cases Except.ok.inj hmm
      refine hm.of_origin (by simp [idsAfter, hm.len]) le_rfl ?_
      intro o' d' t h1 h2
      simp only [idsAfter] at h2
      have hl := lt_of_some hd
      have hl' := hm.len ▸ hl
      by_cases hoo : o = o'
      · subst hoo
        rw [List.getElem?_set_self hl] at h1
        rw [List.getElem?_set_self hl'] at h2
        cases h1; cases h2
        exact Or.inl ⟨rfl, rfl⟩
      · rw [List.getElem?_set_ne hoo] at h1 h2
        exact Or.inr (.inl ⟨o', d', h1, h2, .inl rfl⟩)
  | write o i j v =>
    simp only [Mem.step] at hmm
    split at hmm
    · cases hmm
    · obtain ⟨x, -, hmm⟩ := except_bind_eq_ok.1 hmm
      cases Except.ok.inj hmm
      exact same _
  | fill o v =>
    simp only [Mem.step] at hmm
    split at hmm
    · cases hmm
    · obtain ⟨x, -, hmm⟩ := except_bind_eq_ok.1 hmm
      cases Except.ok.inj hmm
      exact same _
  | copyTo a b rs cs =>
    simp only [Mem.step] at hmm
    split at hmm
    · obtain ⟨x, -, hmm⟩ := except_bind_eq_ok.1 hmm
      cases Except.ok.inj hmm
      exact same _
    · cases hmm

private theorem IdInv.run {ops : List (MemOp R)} : ∀ {m m' : IdMem R}, IdInv m → m.run ops = .ok m' → IdInv m' := by
  induction ops with
  | nil => intro m m' hm h; cases Except.ok.inj h; exact hm
  | cons op t ih =>
    intro m m' hm h
    obtain ⟨m1, h1, h⟩ := except_bind_eq_ok.1 h
    exact ih (hm.step h1) h

omit [Zero R] in
private theorem IdInv.start : IdInv (IdMem.start : IdMem R) :=
  ⟨rfl, fun _ _ h => by simp [IdMem.start] at h, fun _ _ _ _ _ h => by simp [IdMem.start] at h,
    fun _ _ h => by simp [IdMem.start] at h⟩

omit [Zero R] in
private theorem id_eq {m : IdMem R} {o : Nat} {t : Option Nat} : m.id o = .ok t ↔ m.ids[o]? = some t := by
  unfold IdMem.id
  split <;> rename_i h
  · rw [h]; exact ⟨fun h => (nomatch h), fun h => (nomatch h)⟩
  · rw [h]; exact ⟨fun h => by cases Except.ok.inj h; rfl, fun h => by cases h; rfl⟩

/-! ### C68 -/

/-- C68, first half: whatever was done before, every initialised matrix has an id (not
the initial value), and two matrices with the same id have the same dimensions and the
same elements: element `(i,j)` of the one is stored where element `(i,j)` of the other
is, so that reading gives the same and writing to one is writing to the other. -/
theorem C68_same_id {ops : List (MemOp R)} {m : IdMem R} (hr : IdMem.start.run ops = .ok m) {o o' : Nat}
    {d d' : DObj} (hd : m.mem.objs[o]? = some d) (hd' : m.mem.objs[o']? = some d') (ho : d.data ≠ none)
    (ho' : d'.data ≠ none) :
    (∃ k, m.id o = .ok (some k)) ∧
    (m.id o = m.id o' → d.rows = d'.rows ∧ d.cols = d'.cols ∧
      ∀ (h : Heap R) (i j : Nat), d.access h i j = d'.access h i j) := by
  have hm := IdInv.start.run hr
  have hi : ∃ t, m.ids[o]? = some t := ⟨_, List.getElem?_eq_getElem (hm.len ▸ lt_of_some hd)⟩
  obtain ⟨t, ht⟩ := hi
  cases t with
  | none => exact absurd (hm.own _ _ ht hd) ho
  | some k =>
    refine ⟨⟨k, id_eq.2 ht⟩, fun he => ?_⟩
    rw [id_eq.2 ht] at he
    have ht' := id_eq.1 he.symm
    obtain ⟨h1, h2⟩ := hm.same _ _ _ _ _ ht ht' hd hd'
    have hdd : d = d' := by
      rcases h2 with h2 | h2 | h2
      · exact absurd h2 ho
      · exact absurd h2 ho'
      · cases d; cases d'
        simp only [DObj.movedFrom, DObj.mk.injEq] at h1 h2 ⊢
        tauto
    subst hdd
    exact ⟨rfl, rfl, fun _ _ _ => rfl⟩

/-- C68, second half: a shallow copy has the id of its source; a matrix that is moved
keeps its id. -/
theorem C68_shared {m m' : IdMem R} {ops : List (MemOp R)} (hr : IdMem.start.run ops = .ok m) {o : Nat} :
    (m.step (.shallow o) = .ok m' → m'.id m.mem.objs.length = m.id o ∧ m'.id o = m.id o) ∧
    (m.step (.moveCtor o) = .ok m' → m'.id m.mem.objs.length = m.id o) := by
  have hm := IdInv.start.run hr
  have key : ∀ {op : MemOp R}, m.step op = .ok m' → (∀ x, m.mem.objs[o]? = none → m.mem.step op ≠ .ok x) →
      (idsAfter m.ids m.next op).1 = m.ids ++ [m.ids.getD o none] →
      m'.id m.mem.objs.length = m.id o ∧ m'.id o = m.id o := by
    intro op hs hno hids
    obtain ⟨mm, hmm, hs⟩ := except_bind_eq_ok.1 hs
    cases Except.ok.inj hs
    have hl : o < m.ids.length := by
      rw [hm.len]
      by_contra hn
      exact hno _ (List.getElem?_eq_none (by omega)) hmm
    have e : m.id o = .ok (m.ids.getD o none) := id_eq.2 (getD_of_lt hl)
    rw [e]
    refine ⟨id_eq.2 ?_, id_eq.2 ?_⟩
    · rw [hids, ← hm.len, List.getElem?_append_right le_rfl, Nat.sub_self]; rfl
    · rw [hids, List.getElem?_append_left hl, getD_of_lt hl]
  refine ⟨fun hs => key hs (fun x h => ?_) rfl, fun hs => (key hs (fun x h => ?_) rfl).1⟩
  · simp only [Mem.step, h]; exact fun h => (nomatch h)
  · simp only [Mem.step, h]; exact fun h => (nomatch h)

/-- C68, what is missing: the documentation gives matrices that share their elements the
same id.  A matrix made by splitting without copying shares its elements with the matrix
it is split from, but never has its id, even if it covers all of it. -/
theorem C68_views_differ {m m' : IdMem R} {ops : List (MemOp R)} (hr : IdMem.start.run ops = .ok m) {o : Nat}
    {rs cs : List (Nat × Nat)} (hs : m.step (.splitView o rs cs) = .ok m') {p : Nat}
    (hp : p < rs.length * cs.length) : m'.id (m.mem.objs.length + p) ≠ m'.id o := by
  have hm := IdInv.start.run hr
  obtain ⟨mm, hmm, hs⟩ := except_bind_eq_ok.1 hs
  cases Except.ok.inj hs
  have hl : o < m.ids.length := by
    rw [hm.len]
    by_contra hn
    simp only [Mem.step, List.getElem?_eq_none (show m.mem.objs.length ≤ o by omega)] at hmm
    cases hmm
  have e : (⟨mm, (idsAfter m.ids m.next (.splitView o rs cs : MemOp R)).1,
      (idsAfter m.ids m.next (.splitView o rs cs : MemOp R)).2⟩ : IdMem R).id (m.mem.objs.length + p) =
      .ok (some (m.next + p)) := by
    refine id_eq.2 ?_
    simp only [idsAfter]
    rw [List.getElem?_append_right (by rw [hm.len]; omega), hm.len, Nat.add_sub_cancel_left]
    simp [drawIds, hp]
  rw [e]
  intro h
  have h := id_eq.1 h.symm
  simp only [idsAfter] at h
  rw [List.getElem?_append_left hl] at h
  have := hm.lt _ _ h
  omega

/-- C68: a new matrix, a copy and the target of an assignment get an id that no other
object has. -/
theorem C68_fresh {m m' : IdMem R} {ops : List (MemOp R)} (hr : IdMem.start.run ops = .ok m) {op : MemOp R}
    {t : Nat} (hop : (∃ r c, op = .new r c ∧ t = m.mem.objs.length) ∨ (∃ o, op = .copy o ∧ t = m.mem.objs.length) ∨
      (∃ a, op = .assign t a)) (hs : m.step op = .ok m') {x : Nat} (hx : x ≠ t) : m'.id x ≠ m'.id t := by
  have hm := IdInv.start.run hr
  have hm' := hm.step hs
  obtain ⟨mm, hmm, hs⟩ := except_bind_eq_ok.1 hs
  have hnew : m'.ids[t]? = some (some m.next) ∧ ∀ y ≠ t, m'.ids[y]? = m.ids[y]? := by
    cases Except.ok.inj hs
    have app : ∀ y ≠ m.mem.objs.length, (m.ids ++ [some m.next])[y]? = m.ids[y]? := by
      intro y hy
      by_cases h : y < m.ids.length
      · rw [List.getElem?_append_left h]
      · have := hm.len
        rw [List.getElem?_eq_none (by simp; omega), List.getElem?_eq_none (by omega)]
    have last : (m.ids ++ [some m.next])[m.mem.objs.length]? = some (some m.next) := by
      rw [← hm.len, List.getElem?_append_right le_rfl, Nat.sub_self]; rfl
    rcases hop with ⟨r, c, rfl, rfl⟩ | ⟨o, rfl, rfl⟩ | ⟨a, rfl⟩
    · exact ⟨last, app⟩
    · exact ⟨last, app⟩
    · have hl : t < m.ids.length := by
        rw [hm.len]
        by_contra hn
        simp only [Mem.step, List.getElem?_eq_none (show m.mem.objs.length ≤ t by omega)] at hmm
        cases hmm
      exact ⟨List.getElem?_set_self hl, fun y hy => List.getElem?_set_ne (Ne.symm hy)⟩
  intro he
  rw [id_eq.2 hnew.1] at he
  have h := id_eq.1 he
  rw [hnew.2 x hx] at h
  exact absurd (hm.lt _ _ h) (lt_irrefl _)

/-! ### a concrete program -/

/-- A 2-by-2 matrix, a shallow copy, a copy, and a view of all of it. -/
def idOps : List (MemOp Int) := [.new 2 2, .shallow 0, .copy 1, .splitView 0 [(0, 2)] [(0, 2)]]

/-- The ids at the end: the shallow copy has the id of the matrix, the copy and the view
do not. -/
example : ∃ m, IdMem.start.run idOps = .ok m ∧ m.id 0 = .ok (some 0) ∧ m.id 1 = .ok (some 0) ∧
    m.id 2 = .ok (some 1) ∧ m.id 3 = .ok (some 2) ∧ m.mem.objs[3]? = m.mem.objs[0]? := by
  refine ⟨⟨⟨[[0, 0, 0, 0], [0, 0, 0, 0]], [⟨2, 2, 2, some 0, 0, 0, 0⟩, ⟨2, 2, 2, some 0, 0, 0, 0⟩,
    ⟨2, 2, 2, some 1, 0, 0, 0⟩, ⟨2, 2, 2, some 0, 0, 0, 0⟩]⟩, [some 0, some 0, some 1, some 2], 3⟩, rfl, ?_⟩
  exact ⟨rfl, rfl, rfl, rfl, rfl⟩

/-- The hypotheses of `C68_same_id` hold for matrix 0 and its shallow copy. -/
example : ∃ m, IdMem.start.run idOps = .ok m ∧ ∀ (h : Heap Int) (i j : Nat),
    DObj.access h ⟨2, 2, 2, some 0, 0, 0, 0⟩ i j = DObj.access h ⟨2, 2, 2, some 0, 0, 0, 0⟩ i j := by
  refine ⟨⟨⟨[[0, 0, 0, 0], [0, 0, 0, 0]], [⟨2, 2, 2, some 0, 0, 0, 0⟩, ⟨2, 2, 2, some 0, 0, 0, 0⟩,
    ⟨2, 2, 2, some 1, 0, 0, 0⟩, ⟨2, 2, 2, some 0, 0, 0, 0⟩]⟩, [some 0, some 0, some 1, some 2], 3⟩, rfl, ?_⟩
  exact ((C68_same_id (ops := idOps) (m := ⟨⟨[[0, 0, 0, 0], [0, 0, 0, 0]], [⟨2, 2, 2, some 0, 0, 0, 0⟩,
    ⟨2, 2, 2, some 0, 0, 0, 0⟩, ⟨2, 2, 2, some 1, 0, 0, 0⟩, ⟨2, 2, 2, some 0, 0, 0, 0⟩]⟩,
    [some 0, some 0, some 1, some 2], 3⟩) rfl (o := 0) (o' := 1) rfl rfl (by decide) (by decide)).2 rfl).2.2

end Verif
