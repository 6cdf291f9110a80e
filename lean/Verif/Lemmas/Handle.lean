import Verif.Spec.Handle
import Verif.Lemmas.MemRun

/-
Copies of recursive matrices on the heap.
-/

namespace Verif

variable {R : Type}

/-- New buffers may have been added, the old ones are unchanged. -/
def Heap.Grows [Zero R] (h h' : Heap R) : Prop :=
  h.Ext h' ∧ ∀ b < h.length, ∀ k, h'.cell b k = h.cell b k

theorem Heap.Grows.refl [Zero R] (h : Heap R) : h.Grows h := ⟨Heap.Ext.refl h, fun _ _ _ => rfl⟩

theorem Heap.Grows.trans [Zero R] {h h' h'' : Heap R} (a : h.Grows h') (b : h'.Grows h'') :
    h.Grows h'' :=
  ⟨a.1.trans b.1, fun c hc k => by rw [b.2 c (Nat.lt_of_lt_of_le hc a.1.1), a.2 c hc]⟩

section collectS
variable {σ α : Type _} [Inhabited α]

theorem collectS_total {n : Nat} {f : Nat → σ → Except Err (σ × α)} {s0 : σ} (Rel : σ → σ → Prop)
    (Q : Nat → σ → α → Prop) (hrefl : ∀ s, Rel s s) (htrans : ∀ a b c, Rel a b → Rel b c → Rel a c)
    (hst : ∀ i s s' x, Q i s x → Rel s s' → Q i s' x)
    (hf : ∀ i < n, ∀ s, Rel s0 s → ∃ s' x, f i s = .ok (s', x) ∧ Rel s s' ∧ Q i s' x) :
    ∃ s' g, collectS n f s0 = .ok (s', g) ∧ Rel s0 s' ∧ ∀ i < n, Q i s' (g i) := by
  induction n with
  | zero => exact ⟨s0, _, rfl, hrefl s0, fun i hi => by omega⟩
  | succ n ih =>
    obtain ⟨s, g, h1, h2, h3⟩ := ih (fun i hi => hf i (by omega))
    obtain ⟨s', x, f1, f2, f3⟩ := hf n (by omega) s h2
    refine ⟨s', fun i => if i = n then x else g i, ?_, htrans _ _ _ h2 f2, ?_⟩
    · simp only [collectS, h1, except_bind_ok, f1]
    · intro i hi
      by_cases hin : i = n
      · subst hin; simpa using f3
      · simp only [hin, if_false]
        exact hst i s s' _ (h3 i (by omega)) f2

theorem collectS_rel {n : Nat} {f : Nat → σ → Except Err (σ × α)} {s0 s' : σ} {g : Nat → α}
    (Rel : σ → σ → Prop) (hrefl : ∀ s, Rel s s) (htrans : ∀ a b c, Rel a b → Rel b c → Rel a c)
    (hf : ∀ i s s' x, f i s = .ok (s', x) → Rel s s') (h : collectS n f s0 = .ok (s', g)) :
    Rel s0 s' := by
  induction n generalizing s' g with
  | zero =>
    have := Except.ok.inj h
    cases this
    exact hrefl _
  | succ n ih =>
    simp only [collectS, except_bind_eq_ok] at h
    obtain ⟨a, ha, x, hx, h⟩ := h
    cases Except.ok.inj h
    exact htrans _ _ _ (ih (s' := a.1) (g := a.2) ha) (hf n a.1 x.1 x.2 hx)

end collectS

namespace DObj

theorem copyTo_frame [Zero R] {h h' : Heap R} {s t : DObj} {rs cs : Nat}
    (hok : s.copyTo h t rs cs = .ok h') : h.Sim (fun b => t.data ≠ some b) h' := by
  unfold copyTo at hok
  simp only [except_bind_eq_ok] at hok
  obtain ⟨_, -, _, -, hok⟩ := hok
  refine loop_inv (fun _ a => h.Sim _ a) (Heap.Sim.refl _ h) ?_ hok
  intro i _ a b ha hb
  refine loop_inv (fun _ a => h.Sim _ a) ha ?_ hb
  intro j _ a b ha hb
  rw [except_bind_eq_ok] at hb
  obtain ⟨v, -, hw⟩ := hb
  exact ha.trans (write_frame (fun b hb hn => hn hb) hw)

theorem copyCtor_grows [Zero R] {h h' : Heap R} {a c : DObj} (hok : a.copyCtor h = .ok (h', c)) :
    h.Grows h' := by
  unfold copyCtor at hok
  simp only [except_bind_eq_ok] at hok
  obtain ⟨h1, h2, h3⟩ := hok
  cases Except.ok.inj h3
  obtain ⟨e1, e2, -, -⟩ := alloc_spec h a.rows a.cols a.cols
  have hf := copyTo_frame h2
  refine ⟨e1.trans hf.ext, fun b hb k => ?_⟩
  rw [hf.2.2 b (by simp only [alloc]; intro e; have := Option.some.inj e; omega), e2 b hb]

end DObj

theorem SameDense.readable [Zero R] {h h' : Heap R} {d d' : DObj} (hs : SameDense h h' d d') :
    d.Readable h ∧ d'.Readable h' := by
  obtain ⟨h1, h2, h3⟩ := hs
  refine ⟨fun i hi j hj => ?_, fun i hi j hj => ?_⟩
  · obtain ⟨v, hv, -⟩ := h3 i hi j hj
    obtain ⟨-, -, b, hb, hl, -⟩ := DObj.read_eq_ok.1 hv
    exact ⟨b, hb, hl⟩
  · obtain ⟨v, -, hv⟩ := h3 i (by omega) j (by omega)
    obtain ⟨-, -, b, hb, hl, -⟩ := DObj.read_eq_ok.1 hv
    exact ⟨b, hb, hl⟩

/-- Entries of a readable object stay if its buffer stays. -/
theorem SameDense.of_frame [Zero R] {h h1 h2 : Heap R} {d d' : DObj} (hs : SameDense h h1 d d')
    (hx : h1.Ext h2)
    (hc : ∀ b, d'.data = some b → b < h1.length → 0 < d'.rows → 0 < d'.cols →
      ∀ k, h2.cell b k = h1.cell b k) :
    SameDense h h2 d d' := by
  refine ⟨hs.1, hs.2.1, fun i hi j hj => ?_⟩
  obtain ⟨v, hv1, hv2⟩ := hs.2.2 i hi j hj
  refine ⟨v, hv1, ?_⟩
  obtain ⟨x1, x2, b, x3, x4, x5⟩ := DObj.read_eq_ok.1 hv2
  have hbl := Heap.lt_of_size x4
  refine DObj.read_eq_ok.2 ⟨x1, x2, b, x3, by rw [hx.2 b hbl]; exact x4, ?_⟩
  rw [hc b x3 hbl (by omega) (by omega)]
  exact x5

theorem SameDense.grows [Zero R] {h h1 h2 : Heap R} {d d' : DObj} (hs : SameDense h h1 d d')
    (hg : h1.Grows h2) : SameDense h h2 d d' :=
  hs.of_frame hg.1 (fun b _ hb _ _ => hg.2 b hb)

theorem SameDense.trans [Zero R] {h h1 h2 : Heap R} {d d' d'' : DObj} (a : SameDense h h1 d d')
    (b : SameDense h1 h2 d' d'') : SameDense h h2 d d'' := by
  refine ⟨a.1.trans b.1, a.2.1.trans b.2.1, fun i hi j hj => ?_⟩
  obtain ⟨v, v1, v2⟩ := a.2.2 i hi j hj
  obtain ⟨w, w1, w2⟩ := b.2.2 i (by rw [← a.1]; exact hi) j (by rw [← a.2.1]; exact hj)
  obtain rfl := Except.ok.inj (v2.symm.trans w1)
  exact ⟨v, v1, w2⟩

/-- The value of a handle stays if the buffers of its parts stay. -/
theorem SameValue.of_frame [Zero R] {h h1 h2 : Heap R} (hx : h1.Ext h2) {A : HObj R} :
    ∀ {A' : HObj R}, SameValue h h1 A A' →
    (∀ d, A'.Has d → ∀ b, d.data = some b → b < h1.length → 0 < d.rows → 0 < d.cols →
      ∀ k, h2.cell b k = h1.cell b k) →
    SameValue h h2 A A' := by
  induction A with
  | null => intro A' hs _; cases A' <;> simp [SameValue] at hs
  | dense d =>
    intro A' hs hc
    cases A' with
    | dense d' => exact SameDense.of_frame hs hx (hc d' rfl)
    | _ => simp [SameValue] at hs
  | lowRank m n r e U S V =>
    intro A' hs hc
    cases A' with
    | lowRank m' n' r' e' U' S' V' =>
      obtain ⟨h1, h2, h3, h4, h5, h6, h7⟩ := hs
      exact ⟨h1, h2, h3, h4, h5.of_frame hx (hc U' (Or.inl rfl)),
        h6.of_frame hx (hc S' (Or.inr (Or.inl rfl))), h7.of_frame hx (hc V' (Or.inr (Or.inr rfl)))⟩
    | _ => simp [SameValue] at hs
  | hier br bc blk ih =>
    intro A' hs hc
    cases A' with
    | hier br' bc' blk' =>
      obtain ⟨h1, h2, h3⟩ := hs
      exact ⟨h1, h2, fun i hi j hj => ih i j (h3 i hi j hj)
        (fun d hd => hc d ⟨i, j, h1 ▸ hi, h2 ▸ hj, hd⟩)⟩
    | _ => simp [SameValue] at hs
  | empty m n =>
    intro A' hs _
    cases A' with
    | empty m' n' => exact hs
    | _ => simp [SameValue] at hs

theorem SameValue.grows [Zero R] {h h1 h2 : Heap R} {A A' : HObj R} (hs : SameValue h h1 A A')
    (hg : h1.Grows h2) : SameValue h h2 A A' :=
  SameValue.of_frame hg.1 hs (fun _ _ b _ hb _ _ => hg.2 b hb)

theorem SameValue.trans [Zero R] {h h1 h2 : Heap R} {A : HObj R} :
    ∀ {A' A'' : HObj R}, SameValue h h1 A A' → SameValue h1 h2 A' A'' → SameValue h h2 A A'' := by
  induction A with
  | null => intro A' A'' hs; cases A' <;> simp [SameValue] at hs
  | dense d =>
    intro A' A'' hs hs'
    cases A' with
    | dense d' =>
      cases A'' with
      | dense d'' => exact SameDense.trans hs hs'
      | _ => simp [SameValue] at hs'
    | _ => simp [SameValue] at hs
  | lowRank m n r e U S V =>
    intro A' A'' hs hs'
    cases A' with
    | lowRank m' n' r' e' U' S' V' =>
      cases A'' with
      | lowRank m' n' r' e' U' S' V' =>
        obtain ⟨h1, h2, h3, h4, h5, h6, h7⟩ := hs
        obtain ⟨g1, g2, g3, g4, g5, g6, g7⟩ := hs'
        exact ⟨h1.trans g1, h2.trans g2, h3.trans g3, h4.trans g4, h5.trans g5, h6.trans g6,
          h7.trans g7⟩
      | _ => simp [SameValue] at hs'
    | _ => simp [SameValue] at hs
  | hier br bc blk ih =>
    intro A' A'' hs hs'
    cases A' with
    | hier br' bc' blk' =>
      cases A'' with
      | hier br'' bc'' blk'' =>
        obtain ⟨h1, h2, h3⟩ := hs
        obtain ⟨g1, g2, g3⟩ := hs'
        exact ⟨h1.trans g1, h2.trans g2, fun i hi j hj => ih i j (h3 i hi j hj)
          (g3 i (h1 ▸ hi) j (h2 ▸ hj))⟩
      | _ => simp [SameValue] at hs'
    | _ => simp [SameValue] at hs
  | empty m n =>
    intro A' A'' hs hs'
    cases A' with
    | empty m' n' =>
      cases A'' with
      | empty m'' n'' => exact ⟨hs.1.trans hs'.1, hs.2.trans hs'.2⟩
      | _ => simp [SameValue] at hs'
    | _ => simp [SameValue] at hs

theorem SameDense.symm [Zero R] {h h1 : Heap R} {d d' : DObj} (a : SameDense h h1 d d') :
    SameDense h1 h d' d := by
  refine ⟨a.1.symm, a.2.1.symm, fun i hi j hj => ?_⟩
  obtain ⟨v, v1, v2⟩ := a.2.2 i (a.1 ▸ hi) j (a.2.1 ▸ hj)
  exact ⟨v, v2, v1⟩

theorem SameValue.symm [Zero R] {h h1 : Heap R} {A : HObj R} :
    ∀ {A' : HObj R}, SameValue h h1 A A' → SameValue h1 h A' A := by
  induction A with
  | null => intro A' hs; cases A' <;> simp [SameValue] at hs
  | dense d =>
    intro A' hs
    cases A' with
    | dense d' => exact SameDense.symm hs
    | _ => simp [SameValue] at hs
  | lowRank m n r e U S V =>
    intro A' hs
    cases A' with
    | lowRank m' n' r' e' U' S' V' =>
      obtain ⟨h1, h2, h3, h4, h5, h6, h7⟩ := hs
      exact ⟨h1.symm, h2.symm, h3.symm, h4.symm, h5.symm, h6.symm, h7.symm⟩
    | _ => simp [SameValue] at hs
  | hier br bc blk ih =>
    intro A' hs
    cases A' with
    | hier br' bc' blk' =>
      obtain ⟨h1, h2, h3⟩ := hs
      exact ⟨h1.symm, h2.symm, fun i hi j hj => ih i j (h3 i (h1 ▸ hi) j (h2 ▸ hj))⟩
    | _ => simp [SameValue] at hs
  | empty m n =>
    intro A' hs
    cases A' with
    | empty m' n' => exact ⟨hs.1.symm, hs.2.symm⟩
    | _ => simp [SameValue] at hs

/-- Copying only adds buffers. -/
theorem HObj.clone_grows [Zero R] {A : HObj R} :
    ∀ {h h' : Heap R} {A' : HObj R}, A.clone h = .ok (h', A') → h.Grows h' := by
  induction A with
  | null => intro h h' A' hc; cases hc
  | dense d =>
    intro h h' A' hc
    simp only [HObj.clone, except_bind_eq_ok] at hc
    obtain ⟨x, hx, he⟩ := hc
    cases Except.ok.inj he
    exact DObj.copyCtor_grows hx
  | lowRank m n r e U S V =>
    intro h h' A' hc
    simp only [HObj.clone, except_bind_eq_ok] at hc
    obtain ⟨x, hx, y, hy, z, hz, he⟩ := hc
    cases Except.ok.inj he
    exact ((DObj.copyCtor_grows hx).trans (DObj.copyCtor_grows hy)).trans (DObj.copyCtor_grows hz)
  | hier br bc blk ih =>
    intro h h' A' hc
    simp only [HObj.clone, except_bind_eq_ok] at hc
    obtain ⟨x, hx, he⟩ := hc
    cases Except.ok.inj he
    refine collectS_rel Heap.Grows Heap.Grows.refl (fun _ _ _ => Heap.Grows.trans) ?_ hx
    intro i s s' g hs
    refine collectS_rel Heap.Grows Heap.Grows.refl (fun _ _ _ => Heap.Grows.trans) ?_ hs
    intro j s s' g hs
    exact ih i j hs
  | empty m n =>
    intro h h' A' hc
    cases Except.ok.inj hc
    exact Heap.Grows.refl h

theorem DObj.copyCtor_same [Zero R] {h : Heap R} {a a' : DObj} {h0 : Heap R}
    (ha : SameDense h0 h a a') :
    ∃ h' c, a'.copyCtor h = .ok (h', c) ∧ h.Grows h' ∧ SameDense h0 h' a c ∧
      c.data = some h.length := by
  obtain ⟨h', h1, h2, h3, h4, h5, h6⟩ := DObj.copyCtor_ok ha.readable.2
  refine ⟨h', _, h1, ⟨h2, h5⟩, ⟨ha.1, ha.2.1, fun i hi j hj => ?_⟩, rfl⟩
  obtain ⟨v, v1, v2⟩ := ha.2.2 i hi j hj
  exact ⟨v, v1, by rw [h6 i (ha.1 ▸ hi) j (ha.2.1 ▸ hj)]; exact v2⟩

/-- Copying a readable matrix succeeds, gives the same value, and uses new buffers
only. -/
theorem HObj.clone_ok [Zero R] {A : HObj R} :
    ∀ {h : Heap R}, SameValue h h A A →
    ∃ h' A', A.clone h = .ok (h', A') ∧ h.Grows h' ∧ SameValue h h' A A' ∧
      ∀ d, A'.Has d → ∃ b, d.data = some b ∧ h.length ≤ b ∧ b < h'.length := by
  induction A with
  | null => intro h hs; simp [SameValue] at hs
  | dense d =>
    intro h hs
    obtain ⟨h', c, h1, h2, h3, h4⟩ := DObj.copyCtor_same hs
    refine ⟨h', .dense c, by simp only [HObj.clone, h1, except_bind_ok], h2, h3, ?_⟩
    rintro e rfl
    refine ⟨h.length, h4, Nat.le_refl _, ?_⟩
    unfold DObj.copyCtor at h1
    simp only [except_bind_eq_ok] at h1
    obtain ⟨x, hx, he⟩ := h1
    cases Except.ok.inj he
    rw [(DObj.copyTo_frame hx).1, (DObj.alloc_spec h _ _ _).2.2.2]
    omega
  | lowRank m n r e U S V =>
    intro h hs
    obtain ⟨-, -, -, -, hU, hS, hV⟩ := hs
    obtain ⟨h1, u, u1, u2, u3, u4⟩ := DObj.copyCtor_same hU
    obtain ⟨h2, s, s1, s2, s3, s4⟩ := DObj.copyCtor_same (hS.grows u2)
    obtain ⟨h3, v, v1, v2, v3, v4⟩ := DObj.copyCtor_same ((hV.grows u2).grows s2)
    have len : ∀ {h h' : Heap R} {a c : DObj}, a.copyCtor h = .ok (h', c) → h'.length = h.length + 1 := by
      intro h h' a c hc
      unfold DObj.copyCtor at hc
      simp only [except_bind_eq_ok] at hc
      obtain ⟨x, hx, he⟩ := hc
      cases Except.ok.inj he
      rw [(DObj.copyTo_frame hx).1, (DObj.alloc_spec h _ _ _).2.2.2]
    have l1 := len u1
    have l2 := len s1
    have l3 := len v1
    refine ⟨h3, .lowRank m n r e u s v, by simp only [HObj.clone, u1, s1, v1, except_bind_ok],
      (u2.trans s2).trans v2, ⟨rfl, rfl, rfl, rfl, (u3.grows s2).grows v2, s3.grows v2, v3⟩, ?_⟩
    rintro e (rfl | rfl | rfl)
    · exact ⟨_, u4, by omega, by omega⟩
    · exact ⟨_, s4, by omega, by omega⟩
    · exact ⟨_, v4, by omega, by omega⟩
  | hier br bc blk ih =>
    intro h hs
    obtain ⟨-, -, hb⟩ := hs
    let Q : Nat → Nat → Heap R → HObj R → Prop := fun i j h' A' => SameValue h h' (blk i j) A' ∧
      ∀ d, A'.Has d → ∃ b, d.data = some b ∧ h.length ≤ b ∧ b < h'.length
    have hst : ∀ i j s s' x, Q i j s x → Heap.Grows s s' → Q i j s' x := by
      intro i j s s' x hq hg
      refine ⟨hq.1.grows hg, fun d hd => ?_⟩
      obtain ⟨b, b1, b2, b3⟩ := hq.2 d hd
      exact ⟨b, b1, b2, Nat.lt_of_lt_of_le b3 hg.1.1⟩
    obtain ⟨h', g, c1, c2, c3⟩ := collectS_total (n := br)
      (f := fun i h => collectS bc (fun j h => (blk i j).clone h) h) (s0 := h) Heap.Grows
      (fun i s row => ∀ j < bc, Q i j s (row j)) Heap.Grows.refl (fun _ _ _ => Heap.Grows.trans)
      (fun i s s' x hq hg j hj => hst i j s s' _ (hq j hj) hg) (by
        intro i hi s hs
        obtain ⟨s', row, d1, d2, d3⟩ := collectS_total (n := bc)
          (f := fun j h => (blk i j).clone h) (s0 := s) Heap.Grows
          (fun j s x => Q i j s x) Heap.Grows.refl (fun _ _ _ => Heap.Grows.trans)
          (fun j s s' x hq hg => hst i j s s' x hq hg) (by
            intro j hj s2 hs2
            have hhs2 := hs.trans hs2
            have hself : SameValue h s2 (blk i j) (blk i j) := (hb i hi j hj).grows hhs2
            have hself2 : SameValue s2 s2 (blk i j) (blk i j) := by
              have hsym : SameValue s2 h (blk i j) (blk i j) := by
                exact SameValue.symm hself
              exact hsym.trans hself
            obtain ⟨h'', A', a1, a2, a3, a4⟩ := ih i j hself2
            refine ⟨h'', A', a1, a2, hself.trans a3, fun d hd => ?_⟩
            obtain ⟨b, b1, b2, b3⟩ := a4 d hd
            exact ⟨b, b1, Nat.le_trans hhs2.1.1 b2, b3⟩)
        exact ⟨s', row, d1, d2, d3⟩)
    refine ⟨h', .hier br bc g, by simp only [HObj.clone, c1, except_bind_ok], c2,
      ⟨rfl, rfl, fun i hi j hj => (c3 i hi j hj).1⟩, ?_⟩
    rintro d ⟨i, j, hi, hj, hd⟩
    exact (c3 i hi j hj).2 d hd
  | empty m n =>
    intro h hs
    exact ⟨h, .empty m n, rfl, Heap.Grows.refl h, ⟨rfl, rfl⟩, fun d hd => hd.elim⟩

end Verif
