import Verif.Lemmas.Heap

/-
Invariants of programs on dense objects.
-/

namespace Verif

variable {R : Type}

theorem loop_err {σ : Type _} {n : Nat} {body : Nat → σ → Except Err σ} {s : σ} {e : Err}
    (h : loop n body s = .error e) : ∃ i < n, ∃ a, body i a = .error e := by
  induction n with
  | zero => simp at h
  | succ n ih =>
    rw [loop_succ] at h
    cases hl : loop n body s with
    | error e' =>
      rw [hl] at h
      cases Except.error.inj h
      obtain ⟨i, hi, a, ha⟩ := ih hl
      exact ⟨i, by omega, a, ha⟩
    | ok a =>
      rw [hl] at h
      exact ⟨n, by omega, a, h⟩

namespace DObj

/-- The start agrees with the address, and rows do not run into each other. -/
def Shape (d : DObj) : Prop := d.c0 + d.cols ≤ d.stride ∧ d.off = d.r0 * d.stride + d.c0

theorem Ok.shape {h : Heap R} {d : DObj} (hd : d.Ok h) : d.Shape := by
  obtain ⟨b, -, -, h3, h4, -⟩ := hd
  exact ⟨h3, h4⟩

theorem access_error {h : Heap R} {d : DObj} {i j : Nat} {e : Err} (hi : i < d.rows) (hj : j < d.cols)
    (he : d.access h i j = .error e) : e = .ub := by
  unfold access elem at he
  simp only [hi, hj, assertM, decide_true, if_true, except_bind_ok] at he
  cases hd : d.data with
  | none => rw [hd] at he; exact (Except.error.inj he).symm
  | some b =>
    rw [hd] at he
    simp only at he
    split at he
    · cases he
    · exact (Except.error.inj he).symm

theorem read_error [Zero R] {h : Heap R} {d : DObj} {i j : Nat} {e : Err} (hi : i < d.rows)
    (hj : j < d.cols) (he : d.read h i j = .error e) : e = .ub := by
  unfold read at he
  cases ha : d.access h i j with
  | error e' => rw [ha] at he; cases Except.error.inj he; exact access_error hi hj ha
  | ok a => rw [ha] at he; cases he

theorem write_error {h : Heap R} {d : DObj} {i j : Nat} {v : R} {e : Err} (hi : i < d.rows)
    (hj : j < d.cols) (he : d.write h i j v = .error e) : e = .ub := by
  unfold write at he
  cases ha : d.access h i j with
  | error e' => rw [ha] at he; cases Except.error.inj he; exact access_error hi hj ha
  | ok a => rw [ha] at he; cases he

theorem copyTo_error [Zero R] {h : Heap R} {s t : DObj} {rs cs : Nat} {e : Err}
    (hr : rs + t.rows ≤ s.rows) (hc : cs + t.cols ≤ s.cols)
    (he : s.copyTo h t rs cs = .error e) : e = .ub := by
  unfold copyTo at he
  simp only [hr, hc, assertM, decide_true, if_true, except_bind_ok] at he
  obtain ⟨i, hi, a, ha⟩ := loop_err he
  obtain ⟨j, hj, a, ha⟩ := loop_err ha
  cases hrd : s.read a (rs + i) (cs + j) with
  | error e' =>
    rw [hrd] at ha
    cases Except.error.inj ha
    exact read_error (by omega) (by omega) hrd
  | ok v =>
    rw [hrd] at ha
    exact write_error hi hj ha

/-- If copying succeeds, all elements of the target are inside its buffer. -/
theorem copyTo_bounds [Zero R] {h h' : Heap R} {s t : DObj} {rs cs b : Nat} (hb : t.data = some b)
    (hok : s.copyTo h t rs cs = .ok h') :
    ∀ i < t.rows, ∀ j < t.cols, t.loc i j < h.size b := by
  unfold copyTo at hok
  simp only [except_bind_eq_ok] at hok
  obtain ⟨_, -, _, -, hok⟩ := hok
  let Q : Nat → Nat → Heap R → Prop := fun x y h' => (∀ b, h'.size b = h.size b) ∧
    ∀ i < t.rows, ∀ j < t.cols, (i < x ∨ (i = x ∧ j < y)) → t.loc i j < h.size b
  suffices Q t.rows 0 h' from fun i hi j hj => this.2 i hi j hj (Or.inl hi)
  refine loop_inv (fun x => Q x 0) ⟨fun _ => rfl, fun i _ j _ hij => by omega⟩ ?_ hok
  intro x hx a a' ha hloop
  have : Q x t.cols a' := by
    refine loop_inv (fun y => Q x y) ha ?_ hloop
    clear hloop ha a a'
    intro y hy a a' ⟨a2, a4⟩ hbody
    rw [except_bind_eq_ok] at hbody
    obtain ⟨v, hv, hw⟩ := hbody
    obtain ⟨-, -, b', hb', hl, w1, w2, w3⟩ := write_spec hw
    obtain rfl := Option.some.inj (hb.symm.trans hb')
    refine ⟨fun b' => by rw [w2, a2], fun i hi j hj hij => ?_⟩
    by_cases hxy : i = x ∧ j = y
    · obtain ⟨rfl, rfl⟩ := hxy
      rw [← a2]; exact hl
    · exact a4 i hi j hj (by omega)
  exact ⟨this.1, fun i hi j hj hij => this.2 i hi j hj (by omega)⟩

theorem splitCopyAll_ok [Zero R] {d : DObj} (l : List ((Nat × Nat) × (Nat × Nat))) :
    ∀ {h : Heap R}, d.Readable h →
    (∀ rc ∈ l, rc.1.1 + rc.1.2 ≤ d.rows ∧ rc.2.1 + rc.2.2 ≤ d.cols) →
    ∃ h' ds, d.splitCopyAll h l = .ok (h', ds) ∧ h.Ext h' ∧ (∀ e ∈ ds, e.Ok h') ∧
      (∀ b < h.length, ∀ k, h'.cell b k = h.cell b k) ∧ ds.length = l.length ∧
      (∀ e ∈ ds, ∀ b, e.data = some b → h.length ≤ b) ∧
      ∀ (k : Nat) (rc : (Nat × Nat) × (Nat × Nat)) (e : DObj), l[k]? = some rc → ds[k]? = some e → e.rows = rc.1.2 ∧ e.cols = rc.2.2 ∧
        ∀ i < e.rows, ∀ j < e.cols, e.read h' i j = d.read h (rc.1.1 + i) (rc.2.1 + j) := by
  induction l with
  | nil =>
    intro h _ _
    exact ⟨h, [], rfl, Heap.Ext.refl h, by simp, fun _ _ _ => rfl, rfl, by simp, by simp⟩
  | cons rc t ih =>
    intro h hd hl
    obtain ⟨hr, hc⟩ := hl rc (by simp)
    obtain ⟨h1, e1, e2, e3, e4, e5, e6⟩ := copyNew_ok (m := rc.1.2) (n := rc.2.2) (s := rc.2.2) hd
      (Nat.le_refl _) (Or.inr (Or.inr rfl)) hr hc
    obtain ⟨h2, ds, f1, f2, f3, f4, f5, f6, f7⟩ := ih (h := h1) (hd.ext e2)
      (fun x hx => hl x (by simp [hx]))
    refine ⟨h2, (alloc h rc.1.2 rc.2.2 rc.2.2).2 :: ds, ?_, e2.trans f2, ?_, ?_, by simp [f5], ?_, ?_⟩
    · simp only [splitCopyAll, splitCopyOne, new, e1, except_bind_ok, f1]
    · intro e he
      rcases List.mem_cons.1 he with rfl | he
      · exact e3.ext f2
      · exact f3 e he
    · intro b hb k
      rw [f4 b (by omega), e5 b hb]
    · intro e he b hb
      rcases List.mem_cons.1 he with rfl | he
      · exact Nat.le_of_eq (Option.some.inj hb)
      · have := f6 e he b hb; omega
    · intro k rc' e hk he
      cases k with
      | zero =>
        simp only [List.getElem?_cons_zero, Option.some.injEq] at hk he
        subst hk he
        refine ⟨rfl, rfl, fun i hi j hj => ?_⟩
        rw [← e6 i hi j hj]
        refine read_congr (fun b hb => ?_) (fun b hb => ?_) _ _
        · have : b = h.length := (Option.some.inj hb).symm
          exact f2.2 b (by omega)
        · have : b = h.length := (Option.some.inj hb).symm
          exact f4 b (by omega)
      | succ k =>
        simp only [List.getElem?_cons_succ] at hk he
        obtain ⟨g1, g2, g3⟩ := f7 k rc' e hk he
        refine ⟨g1, g2, fun i hi j hj => ?_⟩
        rw [g3 i hi j hj]
        obtain ⟨q1, q2⟩ := hl rc' (by simp [List.mem_of_getElem? hk])
        obtain ⟨b, hb, hbl, _⟩ := hd.read (i := rc'.1.1 + i) (j := rc'.2.1 + j) (by omega) (by omega)
        refine read_congr (fun b' hb' => ?_) (fun b' hb' => ?_) _ _
        · obtain rfl := Option.some.inj (hb.symm.trans hb'); exact e2.2 _ hbl
        · obtain rfl := Option.some.inj (hb.symm.trans hb'); exact e5 _ hbl

theorem Ok.split {h : Heap R} {d : DObj} (hd : d.Ok h) {rs cs : List (Nat × Nat)}
    (hr : RangesIn d.rows rs) (hc : RangesIn d.cols cs) :
    ∀ e ∈ rs.flatMap (fun r => cs.map (fun c => d.block r c)), e.Ok h := by
  intro e he
  simp only [List.mem_flatMap, List.mem_map] at he
  obtain ⟨r, hrm, c, hcm, rfl⟩ := he
  exact hd.block (hr r hrm) (hc c hcm)

end DObj

/-! ### programs -/

/-- Invariant: every object is well shaped, and if it owns a buffer it is valid. -/
def Mem.Inv (m : Mem R) : Prop := ∀ d ∈ m.objs, d.Shape ∧ (d.data = none ∨ d.Ok m.heap)

theorem Mem.Inv.ok {m : Mem R} (hm : m.Inv) {o : Nat} {d : DObj} (ho : m.objs[o]? = some d)
    (hd : d.data ≠ none) : d.Ok m.heap :=
  (hm d (List.mem_of_getElem? ho)).2.resolve_left hd

theorem Mem.Inv.usable {m : Mem R} (hm : m.Inv) {o : Nat} {d : DObj} (ho : m.objs[o]? = some d)
    (hd : d.Usable) : d.Ok m.heap ∨ d.rows = 0 ∨ d.cols = 0 :=
  hd.imp_left (hm.ok ho)

theorem Mem.Inv.readable {m : Mem R} (hm : m.Inv) {o : Nat} {d : DObj} (ho : m.objs[o]? = some d)
    (hd : d.Usable) : d.Readable m.heap := DObj.readable_of (hm.usable ho hd)

theorem Mem.Inv.add {m : Mem R} (hm : m.Inv) {h' : Heap R} (hx : m.heap.Ext h') {ds : List DObj}
    (hds : ∀ d ∈ ds, d.Shape ∧ (d.data = none ∨ d.Ok h')) : Mem.Inv ⟨h', m.objs ++ ds⟩ := by
  intro d hd
  rcases List.mem_append.1 hd with h | h
  · exact ⟨(hm d h).1, (hm d h).2.imp_right (fun x => x.ext hx)⟩
  · exact hds d h

theorem Mem.Inv.set {m : Mem R} (hm : m.Inv) {h' : Heap R} (hx : m.heap.Ext h') {o : Nat} {e : DObj}
    (he : e.Shape ∧ (e.data = none ∨ e.Ok h')) : Mem.Inv ⟨h', m.objs.set o e⟩ := by
  intro d hd
  rcases List.mem_or_eq_of_mem_set hd with h | rfl
  · exact ⟨(hm d h).1, (hm d h).2.imp_right (fun x => x.ext hx)⟩
  · exact he

theorem DObj.shape_default : DObj.default.Shape := by simp [DObj.Shape, DObj.default]

theorem ext_of_sizes {h h' : Heap R} (hl : h'.length = h.length) (hs : ∀ b, h'.size b = h.size b) :
    h.Ext h' := ⟨by omega, fun b _ => hs b⟩

/-- Operations used as documented succeed and keep the invariant. -/
theorem Mem.step_ok [Zero R] {m : Mem R} (hm : m.Inv) {op : MemOp R} (hv : op.Valid m) :
    ∃ m', m.step op = .ok m' ∧ m'.Inv := by
  cases op with
  | default =>
    exact ⟨_, rfl, hm.add (Heap.Ext.refl _) (by
      intro d hd
      obtain rfl := List.mem_singleton.1 hd
      exact ⟨DObj.shape_default, Or.inl rfl⟩)⟩
  | new r c =>
    have hok := DObj.alloc_Ok m.heap (m := r) (Nat.le_refl c) (Or.inr (Or.inr rfl))
    exact ⟨_, rfl, hm.add (DObj.alloc_spec m.heap r c c).1 (by
      intro d hd
      obtain rfl := List.mem_singleton.1 hd
      exact ⟨hok.shape, Or.inr hok⟩)⟩
  | copy o =>
    obtain ⟨d, ho, hu⟩ := hv
    obtain ⟨h', h1, h2, h3, -⟩ := DObj.copyCtor_ok (hm.readable ho hu)
    refine ⟨_, by simp only [Mem.step, ho, h1, except_bind_ok]; rfl, hm.add h2 ?_⟩
    intro d hd
    obtain rfl := List.mem_singleton.1 hd
    exact ⟨h3.shape, Or.inr h3⟩
  | assign o a =>
    obtain ⟨ho, d, ha, hu, hg⟩ := hv
    have hsh := (hm d (List.mem_of_getElem? ha)).1
    have hcs : d.cols ≤ d.stride := by have := hsh.1; omega
    by_cases hoa : o = a
    · subst hoa
      have hok := DObj.alloc_Ok m.heap (m := d.rows) hcs hg
      obtain ⟨h', h1, h2, h3, -⟩ := DObj.copyTo_ok (rs := 0) (cs := 0)
        (DObj.readable_of (Or.inl hok)) (Or.inl hok)
        (Nat.le_of_eq (Nat.zero_add _)) (Nat.le_of_eq (Nat.zero_add _))
      have hx := ext_of_sizes h2 h3
      refine ⟨_, by simp only [Mem.step, ha, if_true, DObj.selfAssign, h1, except_bind_ok]; rfl, hm.set
        ((DObj.alloc_spec m.heap _ _ _).1.trans hx) ⟨hok.shape, Or.inr (hok.ext hx)⟩⟩
    · obtain ⟨h', h1, h2, h3, -⟩ := DObj.copyNew_ok (rs := 0) (cs := 0) (hm.readable ha hu) hcs hg
        (Nat.le_of_eq (Nat.zero_add _)) (Nat.le_of_eq (Nat.zero_add _))
      refine ⟨⟨h', m.objs.set o (DObj.alloc m.heap d.rows d.cols d.stride).2⟩, ?_,
        hm.set h2 ⟨h3.shape, Or.inr h3⟩⟩
      have ho' : m.objs[o]? = some m.objs[o] := List.getElem?_eq_getElem ho
      simp only [Mem.step, ho', ha, hoa, if_false, DObj.copyAssign, h1, except_bind_ok]
  | shallow o =>
    have ho' : m.objs[o]? = some m.objs[o] := List.getElem?_eq_getElem hv
    refine ⟨_, by simp only [Mem.step, ho']; rfl, hm.add (Heap.Ext.refl _) ?_⟩
    intro d hd
    obtain rfl := List.mem_singleton.1 hd
    exact hm _ (List.mem_of_getElem? ho')
  | splitView o rs cs =>
    obtain ⟨d, ho, hd, hr, hc⟩ := hv
    have hok := hm.ok ho hd
    refine ⟨_, by simp only [Mem.step, ho, DObj.splitView, hd, false_and, if_false, except_bind_ok]; rfl,
      hm.add (Heap.Ext.refl _) ?_⟩
    intro e he
    have := hok.split hr hc e he
    exact ⟨this.shape, Or.inr this⟩
  | splitCopy o rs cs =>
    obtain ⟨d, ho, hu, hr, hc⟩ := hv
    obtain ⟨h', ds, h1, h2, h3, -⟩ := DObj.splitCopyAll_ok (d := d)
      (rs.flatMap (fun r => cs.map (fun c => (r, c)))) (hm.readable ho hu) (by
        intro rc hrc
        simp only [List.mem_flatMap, List.mem_map] at hrc
        obtain ⟨r, hrm, c, hcm, rfl⟩ := hrc
        exact ⟨hr r hrm, hc c hcm⟩)
    refine ⟨⟨h', m.objs ++ ds⟩, by simp only [Mem.step, ho, DObj.splitCopy, h1, except_bind_ok],
      hm.add h2 ?_⟩
    intro e he
    exact ⟨(h3 e he).shape, Or.inr (h3 e he)⟩
  | moveCtor o =>
    have ho' : m.objs[o]? = some m.objs[o] := List.getElem?_eq_getElem hv
    have hd := hm _ (List.mem_of_getElem? ho')
    refine ⟨_, by simp only [Mem.step, ho']; rfl, ?_⟩
    have h1 : Mem.Inv ⟨m.heap, m.objs.set o (m.objs[o]).movedFrom⟩ :=
      hm.set (Heap.Ext.refl _) ⟨hd.1, Or.inl rfl⟩
    refine h1.add (Heap.Ext.refl _) ?_
    intro e he
    obtain rfl := List.mem_singleton.1 he
    exact hd
  | moveAssign o a =>
    obtain ⟨hv1, hv2⟩ := hv
    have ho' : m.objs[o]? = some m.objs[o] := List.getElem?_eq_getElem hv1
    have ha' : m.objs[a]? = some m.objs[a] := List.getElem?_eq_getElem hv2
    have hd := hm _ (List.mem_of_getElem? ha')
    by_cases hoa : o = a
    · exact ⟨m, by simp only [Mem.step, ha', hoa, if_true], hm⟩
    · refine ⟨_, by simp only [Mem.step, ho', ha', hoa, if_false]; rfl, ?_⟩
      have h1 : Mem.Inv ⟨m.heap, m.objs.set o (m.objs[a])⟩ := hm.set (Heap.Ext.refl _) hd
      exact h1.set (Heap.Ext.refl _) ⟨hd.1, Or.inl rfl⟩
  | destroy o =>
    have ho' : m.objs[o]? = some m.objs[o] := List.getElem?_eq_getElem hv
    exact ⟨_, by simp only [Mem.step, ho']; rfl, hm.set (Heap.Ext.refl _) ⟨DObj.shape_default, Or.inl rfl⟩⟩
  | write o i j v =>
    obtain ⟨d, ho, hd, hi, hj⟩ := hv
    obtain ⟨b, hb, hl, -⟩ := (hm.ok ho hd).access hi hj
    obtain ⟨h', hw⟩ := DObj.write_ok v hi hj hb hl
    obtain ⟨-, -, b', -, -, w1, w2, -⟩ := DObj.write_spec hw
    refine ⟨⟨h', m.objs⟩, by simp only [Mem.step, ho, hw, except_bind_ok], ?_⟩
    have := hm.add (ext_of_sizes w1 w2) (ds := []) (by simp)
    simpa using this
  | fill o v =>
    obtain ⟨d, ho, hu⟩ := hv
    obtain ⟨h', h1, h2, h3, -⟩ := DObj.fill_ok v (hm.usable ho hu)
    refine ⟨⟨h', m.objs⟩, by simp only [Mem.step, ho, h1, except_bind_ok], ?_⟩
    have := hm.add (ext_of_sizes h2 h3) (ds := []) (by simp)
    simpa using this
  | copyTo s t rs cs =>
    obtain ⟨d, e, hs, ht, hu, hw, hr, hc⟩ := hv
    obtain ⟨h', h1, h2, h3, -⟩ := DObj.copyTo_ok (hm.readable hs hu) (hm.usable ht hw) hr hc
    refine ⟨⟨h', m.objs⟩, by simp only [Mem.step, hs, ht, h1, except_bind_ok], ?_⟩
    have := hm.add (ext_of_sizes h2 h3) (ds := []) (by simp)
    simpa using this

theorem Reach.inv [Zero R] {m : Mem R} (hm : Reach m) : m.Inv := by
  induction hm with
  | start => intro d hd; simp at hd
  | step _ hv hs ih =>
    obtain ⟨m', h1, h2⟩ := Mem.step_ok ih hv
    rw [h1] at hs
    exact Except.ok.inj hs ▸ h2

end Verif
