import Verif.Lemmas.Mem

/-
Writes through objects and their effect on other objects.
-/

namespace Verif

variable {R : Type}

theorem filter_none {α : Type _} (l : List α) : l.filter (fun _ => false) = [] := by
  induction l <;> simp_all

theorem loop_sim {σ : Type _} {n : Nat} {body : Nat → σ → Except Err σ} (S : σ → σ → Prop)
    (hb : ∀ i s1 s2 s1', S s1 s2 → body i s1 = .ok s1' → ∃ s2', body i s2 = .ok s2' ∧ S s1' s2')
    {s1 s2 s1' : σ} (hs : S s1 s2) (h : loop n body s1 = .ok s1') :
    ∃ s2', loop n body s2 = .ok s2' ∧ S s1' s2' := by
  induction n generalizing s1' with
  | zero => simp at h; subst h; exact ⟨s2, rfl, hs⟩
  | succ n ih =>
    rw [loop_succ, except_bind_eq_ok] at h
    obtain ⟨a, ha, hb'⟩ := h
    obtain ⟨a2, ha2, hS⟩ := ih ha
    obtain ⟨s2', h2, hS'⟩ := hb n a a2 s1' hS hb'
    exact ⟨s2', by rw [loop_succ, ha2]; exact h2, hS'⟩

/-- Two heaps with the same buffer lengths that agree on the buffers in `P`. -/
def Heap.Sim [Zero R] (P : Nat → Prop) (h h' : Heap R) : Prop :=
  h'.length = h.length ∧ (∀ b, h'.size b = h.size b) ∧ ∀ b, P b → ∀ k, h'.cell b k = h.cell b k

theorem Heap.Sim.refl [Zero R] (P : Nat → Prop) (h : Heap R) : h.Sim P h :=
  ⟨rfl, fun _ => rfl, fun _ _ _ => rfl⟩

theorem Heap.Sim.trans [Zero R] {P : Nat → Prop} {h h' h'' : Heap R} (a : h.Sim P h')
    (b : h'.Sim P h'') : h.Sim P h'' :=
  ⟨b.1.trans a.1, fun k => (b.2.1 k).trans (a.2.1 k), fun k hk x => (b.2.2 k hk x).trans (a.2.2 k hk x)⟩

theorem Heap.Sim.symm [Zero R] {P : Nat → Prop} {h h' : Heap R} (a : h.Sim P h') : h'.Sim P h :=
  ⟨a.1.symm, fun k => (a.2.1 k).symm, fun k hk x => (a.2.2 k hk x).symm⟩

theorem Heap.Sim.ext [Zero R] {P : Nat → Prop} {h h' : Heap R} (a : h.Sim P h') : h.Ext h' :=
  ⟨Nat.le_of_eq a.1.symm, fun b _ => a.2.1 b⟩

theorem Heap.Sim.read [Zero R] {P : Nat → Prop} {h h' : Heap R} (a : h.Sim P h') {d : DObj}
    (hd : ∀ b, d.data = some b → P b) (i j : Nat) : d.read h' i j = d.read h i j :=
  DObj.read_congr (fun b _ => a.2.1 b) (fun b hb => a.2.2 b (hd b hb)) i j

namespace DObj

theorem write_frame [Zero R] {h h' : Heap R} {d : DObj} {i j : Nat} {v : R} {P : Nat → Prop}
    (hP : ∀ b, d.data = some b → ¬ P b) (hw : d.write h i j v = .ok h') : h.Sim P h' := by
  obtain ⟨-, -, b, hb, -, w1, w2, w3⟩ := write_spec hw
  refine ⟨w1, w2, fun b' hb' k => ?_⟩
  rw [w3, if_neg]
  rintro ⟨rfl, -⟩
  exact hP b' hb hb'

theorem write_sim [Zero R] {h1 h2 h1' : Heap R} {d : DObj} {i j : Nat} {v : R} {P : Nat → Prop}
    (hS : h1.Sim P h2) (hw : d.write h1 i j v = .ok h1') :
    ∃ h2', d.write h2 i j v = .ok h2' ∧ h1'.Sim P h2' := by
  obtain ⟨hi, hj, b, hb, hl, w1, w2, w3⟩ := write_spec hw
  obtain ⟨h2', hw2⟩ := write_ok v hi hj hb (h := h2) (by rw [hS.2.1]; exact hl)
  obtain ⟨-, -, b', hb', -, u1, u2, u3⟩ := write_spec hw2
  obtain rfl := Option.some.inj (hb.symm.trans hb')
  refine ⟨h2', hw2, by rw [u1, w1, hS.1], fun b => by rw [u2, w2, hS.2.1], fun b' hP k => ?_⟩
  rw [u3, w3, hS.2.2 b' hP]

theorem fill_frame [Zero R] {h h' : Heap R} {d : DObj} {v : R} {P : Nat → Prop}
    (hP : ∀ b, d.data = some b → ¬ P b) (hw : d.fill h v = .ok h') : h.Sim P h' := by
  unfold fill at hw
  refine loop_inv (fun _ a => h.Sim P a) (Heap.Sim.refl P h) ?_ hw
  intro i _ a b ha hb
  refine loop_inv (fun _ a => h.Sim P a) ha ?_ hb
  intro j _ a b ha hb
  exact ha.trans (write_frame hP hb)

theorem fill_sim [Zero R] {h1 h2 h1' : Heap R} {d : DObj} {v : R} {P : Nat → Prop}
    (hS : h1.Sim P h2) (hw : d.fill h1 v = .ok h1') :
    ∃ h2', d.fill h2 v = .ok h2' ∧ h1'.Sim P h2' := by
  unfold fill at hw ⊢
  refine loop_sim (Heap.Sim P) ?_ hS hw
  intro i a b a' hab ha
  refine loop_sim (Heap.Sim P) ?_ hab ha
  intro j a b a' hab ha
  exact write_sim hab ha

/-- Reading through `e` after a write through `d` into the same buffer. -/
theorem read_after_write [Zero R] {h h' : Heap R} {d e : DObj} {i j x y : Nat} {v : R}
    (hde : e.data = d.data) (he : e.Ok h) (hw : d.write h i j v = .ok h') (hx : x < e.rows)
    (hy : y < e.cols) :
    e.read h' x y = if e.loc x y = d.loc i j then .ok v else e.read h x y := by
  obtain ⟨-, -, b, hb, -, w1, w2, w3⟩ := write_spec hw
  have he' : e.Ok h' := he.ext (ext_of_sizes w1 w2)
  obtain ⟨b1, hb1, r1⟩ := he.read hx hy
  obtain ⟨b2, hb2, r2⟩ := he'.read hx hy
  obtain rfl := Option.some.inj (hb1.symm.trans hb2)
  obtain rfl := Option.some.inj (hb.symm.trans (hde.symm.trans hb1))
  rw [r1, r2, w3]
  by_cases hl : e.loc x y = d.loc i j
  · rw [if_pos ⟨rfl, hl⟩, if_pos hl]
  · rw [if_neg (fun h => hl h.2), if_neg hl]

end DObj

theorem Mem.read_eq [Zero R] {m : Mem R} {o : Nat} {d : DObj} (h : m.objs[o]? = some d) (i j : Nat) :
    m.read o i j = d.read m.heap i j := by
  simp only [Mem.read, h]

/-- A write operation: what it is. -/
theorem Mem.step_write [Zero R] {m m' : Mem R} {op : MemOp R} {o : Nat} (hop : op.WritesTo o)
    (h : m.step op = .ok m') : ∃ d, m.objs[o]? = some d ∧ m'.objs = m.objs ∧
      ((∃ i j v, op = .write o i j v ∧ d.write m.heap i j v = .ok m'.heap) ∨
        ∃ v, op = .fill o v ∧ d.fill m.heap v = .ok m'.heap) := by
  cases op with
  | write o' i j v =>
    obtain rfl : o' = o := hop
    simp only [Mem.step] at h
    cases hd : m.objs[o']? with
    | none => rw [hd] at h; cases h
    | some d =>
      rw [hd] at h
      simp only [except_bind_eq_ok] at h
      obtain ⟨h', h1, h2⟩ := h
      cases Except.ok.inj h2
      exact ⟨d, rfl, rfl, Or.inl ⟨i, j, v, rfl, h1⟩⟩
  | fill o' v =>
    obtain rfl : o' = o := hop
    simp only [Mem.step] at h
    cases hd : m.objs[o']? with
    | none => rw [hd] at h; cases h
    | some d =>
      rw [hd] at h
      simp only [except_bind_eq_ok] at h
      obtain ⟨h', h1, h2⟩ := h
      cases Except.ok.inj h2
      exact ⟨d, rfl, rfl, Or.inr ⟨v, rfl, h1⟩⟩
  | _ => exact absurd hop (by simp [MemOp.WritesTo])

theorem Mem.step_frame [Zero R] {m m' : Mem R} {op : MemOp R} {o : Nat} {d : DObj} {P : Nat → Prop}
    (hop : op.WritesTo o) (hd : m.objs[o]? = some d) (hP : ∀ b, d.data = some b → ¬ P b)
    (h : m.step op = .ok m') : m.heap.Sim P m'.heap := by
  obtain ⟨d', hd', -, h1⟩ := Mem.step_write hop h
  obtain rfl := Option.some.inj (hd.symm.trans hd')
  rcases h1 with ⟨i, j, v, -, h1⟩ | ⟨v, -, h1⟩
  · exact DObj.write_frame hP h1
  · exact DObj.fill_frame hP h1

theorem Mem.step_sim [Zero R] {m1 m2 m1' : Mem R} {op : MemOp R} {o : Nat} {P : Nat → Prop}
    (hop : op.WritesTo o) (ho : m2.objs = m1.objs) (hS : m1.heap.Sim P m2.heap)
    (h : m1.step op = .ok m1') :
    ∃ m2', m2.step op = .ok m2' ∧ m2'.objs = m2.objs ∧ m1'.heap.Sim P m2'.heap := by
  obtain ⟨d, hd, -, h1⟩ := Mem.step_write hop h
  rcases h1 with ⟨i, j, v, rfl, h1⟩ | ⟨v, rfl, h1⟩
  · obtain ⟨h', h2, h3⟩ := DObj.write_sim hS h1
    exact ⟨⟨h', m2.objs⟩, by simp only [Mem.step, ho, hd, h2, except_bind_ok], rfl, h3⟩
  · obtain ⟨h', h2, h3⟩ := DObj.fill_sim hS h1
    exact ⟨⟨h', m2.objs⟩, by simp only [Mem.step, ho, hd, h2, except_bind_ok], rfl, h3⟩

/-- A program of writes, and the same program without the operations that only
touch buffers outside `P`. -/
theorem Mem.run_sim [Zero R] (P : Nat → Prop) (keep : MemOp R → Bool) (objs : List DObj)
    (ws : List (MemOp R)) :
    ∀ {m1 m2 m1' : Mem R}, m1.objs = objs → m2.objs = objs → m1.heap.Sim P m2.heap →
    (∀ op ∈ ws, ∃ o, op.WritesTo o ∧ (keep op = false → ∀ d, objs[o]? = some d →
      ∀ b, d.data = some b → ¬ P b)) →
    m1.run ws = .ok m1' →
    ∃ m2', m2.run (ws.filter keep) = .ok m2' ∧ m1'.objs = objs ∧ m2'.objs = objs ∧
      m1'.heap.Sim P m2'.heap := by
  induction ws with
  | nil =>
    intro m1 m2 m1' h1 h2 hS _ h
    cases Except.ok.inj h
    exact ⟨m2, rfl, h1, h2, hS⟩
  | cons op t ih =>
    intro m1 m2 m1' h1 h2 hS hw h
    simp only [Mem.run, except_bind_eq_ok] at h
    obtain ⟨a, ha, hrun⟩ := h
    obtain ⟨o, hop, hk⟩ := hw op (by simp)
    obtain ⟨d, hd, hao, -⟩ := Mem.step_write hop ha
    cases hkeep : keep op with
    | false =>
      have hf := Mem.step_frame (P := P) hop hd (hk hkeep d (h1 ▸ hd)) ha
      rw [List.filter_cons_of_neg (by simp [hkeep])]
      exact ih (hao.trans h1) h2 (hf.symm.trans hS) (fun op hop => hw op (by simp [hop])) hrun
    | true =>
      obtain ⟨b, hb, hbo, hbS⟩ := Mem.step_sim hop (h2.trans h1.symm) hS ha
      rw [List.filter_cons_of_pos (by simp [hkeep])]
      obtain ⟨m2', r1, r2⟩ := ih (hao.trans h1) (hbo.trans h2) hbS
        (fun op hop => hw op (by simp [hop])) hrun
      exact ⟨m2', by simp only [Mem.run, hb, except_bind_ok]; exact r1, r2⟩

theorem Heap.Sim.mono [Zero R] {P Q : Nat → Prop} {h h' : Heap R} (a : h.Sim P h')
    (hPQ : ∀ b, Q b → P b) : h.Sim Q h' := ⟨a.1, a.2.1, fun b hb => a.2.2 b (hPQ b hb)⟩

/-- A program of writes keeps the objects and the buffer lengths. -/
theorem Mem.run_writes [Zero R] {m m' : Mem R} {ws : List (MemOp R)} (hw : ∀ op ∈ ws, op.IsWrite)
    (h : m.run ws = .ok m') : m'.objs = m.objs ∧ m.heap.Ext m'.heap := by
  obtain ⟨m2, h1, h2, h3, h4⟩ := Mem.run_sim (fun _ => False) (fun _ => false) m.objs ws rfl rfl
    (Heap.Sim.refl _ m.heap) (by
      intro op hop
      obtain ⟨o, ho⟩ := hw op hop
      exact ⟨o, ho, fun _ _ _ _ _ => id⟩) h
  have : m2 = m := by
    simp only [filter_none, Mem.run] at h1
    exact (Except.ok.inj h1).symm
  subst this
  exact ⟨h2, h4.symm.ext⟩

/-- Objects whose buffer is not written keep their entries. -/
theorem Mem.run_frame [Zero R] {m m' : Mem R} {ws : List (MemOp R)} {x : Nat} {e : DObj}
    (hx : m.objs[x]? = some e)
    (hw : ∀ op ∈ ws, ∃ o, op.WritesTo o ∧ ∀ d, m.objs[o]? = some d → ∀ b, d.data = some b →
      e.data ≠ some b)
    (h : m.run ws = .ok m') (i j : Nat) : m'.read x i j = m.read x i j := by
  obtain ⟨m2, h1, h2, h3, h4⟩ := Mem.run_sim (fun b => e.data = some b) (fun _ => false) m.objs ws
    rfl rfl (Heap.Sim.refl _ m.heap) (by
      intro op hop
      obtain ⟨o, ho, hn⟩ := hw op hop
      exact ⟨o, ho, fun _ d hd b hb => hn d hd b hb⟩) h
  have : m2 = m := by
    simp only [filter_none, Mem.run] at h1
    exact (Except.ok.inj h1).symm
  subst this
  rw [Mem.read_eq hx, Mem.read_eq (m := m') (h2 ▸ hx)]
  exact h4.symm.read (fun b hb => hb) i j

end Verif
