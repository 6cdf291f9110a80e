import Verif.Lemmas.HeapOpsStep
import Verif.Lemmas.MemRun

/-
Programs of operations on the stored elements.
-/

namespace Verif

variable {R : Type}

section
variable [Field R] [DecidableEq R] {objs : List DObj} {S : List Nat} {h : Heap R} {V : Nat → Dense R}

/-- Every operation has the same effect on the heap as on values. -/
theorem refines_all (K : QrKernels R) (hR : MemRep objs S h V) (hS : MemSep objs S) {op : ArithOp R}
    (hu : op.Uses S) : Refines K objs S h V op := by
  obtain ⟨h1, h2⟩ := hu
  cases op <;> simp only [ArithOp.targets, ArithOp.operands, ArithOp.isLoop, List.cons_append, List.nil_append,
    List.append_nil, List.mem_cons, List.not_mem_nil, or_false, forall_eq_or_imp, forall_eq, List.nodup_cons,
    List.nodup_nil, not_or, not_false_eq_true, and_true, true_and, true_imp_iff,
    Bool.true_eq_false, IsEmpty.forall_iff, implies_true] at h1 h2
  case fill o v => exact refines_fill K hR hS h1 v
  case copyTo s t rs cs => exact refines_copyTo K hR hS h1.2 h1.1
  case add o a => exact refines_add K hR hS h1.1 h1.2
  case scale o c => exact refines_scale K hR hS h1 c
  case gemm a b c α β ta tb => exact refines_gemm K hR hS h1.2.1 h1.2.2 h1.1 h2.1 h2.2 α β ta tb
  case trmm a b side uplo tr unit α => exact refines_trmm K hR hS h1.2 h1.1 h2 side uplo tr unit α
  case trsm a b uplo side => exact refines_trsm K hR hS h1.2 h1.1 h2 uplo side
  case larfb v t c tr => exact refines_larfb K hR hS h1.2.1 h1.2.2 h1.1 h2.1 h2.2 tr
  case geqrt a t => exact refines_geqrt K hR hS h1.1 h1.2 h2
  case tpqrt a b t => exact refines_tpqrt K hR hS h1.1 h1.2.1 h1.2.2 h2.1.1 h2.1.2 h2.2
  case tpmqrt v t a b tr =>
    exact refines_tpmqrt K hR hS h1.2.2.1 h1.2.2.2 h1.1 h1.2.1 h2.2.1.1 h2.2.1.2 h2.2.2.1 h2.2.2.2 h2.1 tr

theorem refines_run (K : QrKernels R) (hS : MemSep objs S) {ops : List (ArithOp R)}
    (hu : ∀ op ∈ ops, op.Uses S) {h : Heap R} {V : Nat → Dense R} (hR : MemRep objs S h V)
    {V' : Nat → Dense R} (hV : valRun K V ops = .ok V') :
    ∃ h', Mem.arithRun K ⟨h, objs⟩ ops = .ok ⟨h', objs⟩ ∧
      h.Same (fun b k => ∃ op ∈ ops, ∃ o ∈ op.targets, ∃ d, objs[o]? = some d ∧ d.Cell b k) h' ∧
      MemRep objs S h' V' := by
  induction ops generalizing h V with
  | nil =>
    cases Except.ok.inj hV
    exact ⟨h, rfl, Heap.Same.refl _ _, hR⟩
  | cons op t ih =>
    simp only [valRun, except_bind_eq_ok] at hV
    obtain ⟨V1, hV1, hV⟩ := hV
    obtain ⟨h1, e1, s1, r1⟩ := refines_all K hR hS (hu op List.mem_cons_self) V1 hV1
    obtain ⟨h2, e2, s2, r2⟩ := ih (fun op hop => hu op (List.mem_cons_of_mem _ hop)) r1 hV
    refine ⟨h2, by simp only [Mem.arithRun, e1, except_bind_ok]; exact e2,
      Heap.Same.trans (s1.mono fun b k ⟨o, ho, hd⟩ => ⟨op, List.mem_cons_self, o, ho, hd⟩)
      (s2.mono fun b k ⟨op', hop, hd⟩ => ⟨op', List.mem_cons_of_mem _ hop, hd⟩), r2⟩

end

/-! ### between the statements and the invariants -/

section
variable [Zero R]

/-- Two heaps with the same elements are equal. -/
theorem Heap.ext_cells {h h' : Heap R} (h1 : h'.length = h.length) (h2 : ∀ b, h'.size b = h.size b)
    (h3 : ∀ b k, h'.cell b k = h.cell b k) : h' = h := by
  refine List.ext_getElem h1 fun b hb hb' => ?_
  have e := h2 b
  simp only [Heap.size, List.getD, List.getElem?_eq_getElem hb, List.getElem?_eq_getElem hb',
    Option.getD_some] at e
  refine List.ext_getElem e fun k hk hk' => ?_
  have f := h3 b k
  simpa only [Heap.cell, List.getD, List.getElem?_eq_getElem hb, List.getElem?_eq_getElem hb',
    Option.getD_some, List.getElem?_eq_getElem hk, List.getElem?_eq_getElem hk'] using f

/-- Writing all entries of an object is a program of writes. -/
theorem Reach.store {m : Mem R} (hm : Reach m) {o : Nat} {d : DObj} (ho : m.objs[o]? = some d)
    (hd : d.data ≠ none) (v : Nat → Nat → R) {h' : Heap R} (hs : d.store m.heap v = .ok h') :
    Reach ⟨h', m.objs⟩ := by
  unfold DObj.store at hs
  refine loop_inv (fun _ a => Reach ⟨a, m.objs⟩) hm ?_ hs
  intro i hi a b ha hb
  refine loop_inv (fun _ a => Reach ⟨a, m.objs⟩) ha ?_ hb
  intro j hj a b ha hb
  refine Reach.step (op := .write o i j (v i j)) ha ⟨d, ho, hd, hi, hj⟩ ?_
  simp only [Mem.step, ho, hb, except_bind_ok]

/-- Objects that are changed only at elements of objects of the program can be reached
by writes. -/
theorem Reach.same {m : Mem R} (hm : Reach m) (T : List Nat) {h' : Heap R}
    (hT : ∀ o ∈ T, ∃ d, m.objs[o]? = some d ∧ d.data ≠ none)
    (hs : m.heap.Same (fun b k => ∃ o ∈ T, ∃ d, m.objs[o]? = some d ∧ d.Cell b k) h') :
    Reach ⟨h', m.objs⟩ := by
  induction T generalizing m with
  | nil =>
    have : h' = m.heap := Heap.ext_cells hs.1 hs.2.1 fun b k => hs.2.2 b k (by rintro ⟨o, ho, -⟩; cases ho)
    rw [this]; exact hm
  | cons o t ih =>
    obtain ⟨d, ho, hd⟩ := hT o List.mem_cons_self
    have hok : d.Ok m.heap := hm.inv.ok ho hd
    obtain ⟨b, hb, -⟩ := id hok
    have hrd : d.Readable m.heap := DObj.readable_of (Or.inl hok)
    obtain ⟨h1, e1, s1, s2⟩ := DObj.store_ok hb hrd hok.stride_le (fun i j => h'.cell b (d.loc i j))
    have hm1 : Reach ⟨h1, m.objs⟩ := hm.store ho hd _ e1
    refine ih (m := ⟨h1, m.objs⟩) hm1 (fun x hx => hT x (List.mem_cons_of_mem _ hx)) ?_
    refine ⟨hs.1.trans s1.1.symm, fun x => (hs.2.1 x).trans (s1.2.1 x).symm, fun x k hk => ?_⟩
    by_cases hc : d.Cell x k
    · obtain ⟨hx, i, hi, j, hj, rfl⟩ := hc
      obtain rfl : b = x := Option.some.inj (hb.symm.trans hx)
      exact (s2 i hi j hj).symm
    · rw [s1.2.2 x k hc]
      refine hs.2.2 x k ?_
      rintro ⟨y, hy, e, he, hce⟩
      rcases List.mem_cons.1 hy with rfl | hy
      · obtain rfl : d = e := Option.some.inj (ho.symm.trans he)
        exact hc hce
      · exact hk ⟨y, hy, e, he, hce⟩

omit [Zero R] in
/-- An element of an object by `access`. -/
theorem DObj.Ok.access_cell {h : Heap R} {d : DObj} (hd : d.Ok h) {b k : Nat} :
    d.Cell b k ↔ ∃ i < d.rows, ∃ j < d.cols, d.access h i j = .ok (b, k) := by
  constructor
  · rintro ⟨hb, i, hi, j, hj, rfl⟩
    obtain ⟨b', hb', -, ha⟩ := hd.access hi hj
    obtain rfl : b = b' := Option.some.inj (hb.symm.trans hb')
    exact ⟨i, hi, j, hj, ha⟩
  · rintro ⟨i, hi, j, hj, ha⟩
    obtain ⟨b', hb', -, ha'⟩ := hd.access hi hj
    have := Except.ok.inj (ha.symm.trans ha')
    cases this
    exact ⟨hb', i, hi, j, hj, rfl⟩

omit [Zero R] in
theorem DObj.Ok.apart {h : Heap R} {d e : DObj} (hd : d.Ok h) (he : e.Ok h) :
    d.Apart h e ↔ ∀ b k, d.Cell b k → ¬ e.Cell b k := by
  constructor
  · intro ha b k h1 h2
    obtain ⟨i, hi, j, hj, a1⟩ := hd.access_cell.1 h1
    obtain ⟨i', hi', j', hj', a2⟩ := he.access_cell.1 h2
    exact ha i hi j hj i' hi' j' hj' (a1.trans a2.symm)
  · intro ha i hi j hj i' hi' j' hj' heq
    obtain ⟨b, hb, -, a1⟩ := hd.access hi hj
    exact ha b _ (hd.access_cell.2 ⟨i, hi, j, hj, a1⟩) (he.access_cell.2 ⟨i', hi', j', hj', heq ▸ a1⟩)

theorem Mem.Separate.memSep {m : Mem R} (hm : Reach m) {S : List Nat} (hS : m.Separate S) :
    MemSep m.objs S := by
  intro o ho o' ho' hne d e hd he
  obtain ⟨d', hd', hdd, -⟩ := hS.1 o ho
  obtain ⟨e', he', hee, -⟩ := hS.1 o' ho'
  obtain rfl := Option.some.inj (hd.symm.trans hd')
  obtain rfl := Option.some.inj (he.symm.trans he')
  exact ((hm.inv.ok hd hdd).apart (hm.inv.ok he hee)).1 (hS.2 o ho o' ho' hne d e hd he)

theorem Mem.Separate.memRep {m : Mem R} (hm : Reach m) {S : List Nat} (hS : m.Separate S)
    {V : Nat → Dense R} (hV : ∀ o ∈ S, m.Shows o (V o)) :
    MemRep m.objs S m.heap (fun o => (V o).clip) := by
  intro o ho
  obtain ⟨d, hd, hdd, hr, hc⟩ := hS.1 o ho
  obtain ⟨⟨d', hd', e1, e2⟩, h3⟩ := hV o ho
  obtain rfl := Option.some.inj (hd.symm.trans hd')
  have hok := hm.inv.ok hd hdd
  refine ⟨d, hd, hok, hr, hc, ?_⟩
  change (V o).clip = d.value m.heap
  unfold Dense.clip DObj.value
  rw [← e1, ← e2]
  congr 1
  funext i j
  by_cases hx : i < d.rows ∧ j < d.cols
  · rw [if_pos hx, if_pos hx]
    have := h3 i (e1 ▸ hx.1) j (e2 ▸ hx.2)
    rw [Mem.read_eq hd] at this
    obtain ⟨b, hb, hrd⟩ := hok.read hx.1 hx.2
    rw [hb]
    exact Except.ok.inj (this.symm.trans hrd)
  · rw [if_neg hx, if_neg hx]

theorem MemRep.shows {m : Mem R} {S : List Nat} {V : Nat → Dense R} (hR : MemRep m.objs S m.heap V)
    {o : Nat} (ho : o ∈ S) : m.Shows o (V o) := by
  obtain ⟨d, hd, hok, -, -, hv⟩ := hR o ho
  rw [hv]
  refine ⟨⟨d, hd, rfl, rfl⟩, fun i hi j hj => ?_⟩
  rw [Mem.read_eq hd]
  obtain ⟨b, hb, hrd⟩ := hok.read (i := i) (j := j) hi hj
  rw [hrd]
  simp only [DObj.value, hb, Option.getD_some]
  exact congrArg Except.ok (if_pos ⟨hi, hj⟩).symm

end

end Verif
