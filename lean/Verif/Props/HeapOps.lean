import Verif.Lemmas.HeapOpsRun
import Verif.Props.Heap
import Mathlib.Data.Real.Basic
import Mathlib.Tactic.IntervalCases

/-
Arithmetic in place on matrices that are parts of larger matrices (C63).
-/

namespace Verif

open Finset

variable {R : Type} [Field R] [DecidableEq R]

/-- C63: a program of in-place operations on matrices that have no stored element in
common computes what the same operations compute on matrices as values, wherever the
matrices are stored (whole matrices, tiles of one matrix, tiles of tiles, other
strides).  No element outside the targets changes, and the memory is one of the
memories that theorems C11 to C14 are about. -/
theorem C63_program (K : QrKernels R) {m : Mem R} (hm : Reach m) {S : List Nat} (hS : m.Separate S)
    {V : Nat → Dense R} (hV : ∀ o ∈ S, m.Shows o (V o)) {ops : List (ArithOp R)}
    (hu : ∀ op ∈ ops, op.Uses S) {V' : Nat → Dense R}
    (hr : valRun K (fun o => (V o).clip) ops = .ok V') :
    ∃ m', m.arithRun K ops = .ok m' ∧ m'.objs = m.objs ∧ Reach m' ∧
      (∀ o ∈ S, m'.Shows o (V' o)) ∧
      ∀ o d i j, m.objs[o]? = some d → i < d.rows → j < d.cols →
        (∀ op ∈ ops, ∀ t ∈ op.targets, ∀ e, m.objs[t]? = some e → ∀ i' < e.rows, ∀ j' < e.cols,
          e.access m.heap i' j' ≠ d.access m.heap i j) →
        m'.read o i j = m.read o i j := by
  obtain ⟨h', h1, h2, h3⟩ := refines_run K (hS.memSep hm) hu (hS.memRep hm hV) hr
  have hT : ∀ o ∈ ops.flatMap ArithOp.targets, o ∈ S := by
    intro o ho
    obtain ⟨op, hop, ho⟩ := List.mem_flatMap.1 ho
    exact (hu op hop).1 o (List.mem_append_left _ ho)
  refine ⟨⟨h', m.objs⟩, h1, rfl, ?_, fun o ho => MemRep.shows (m := ⟨h', m.objs⟩) h3 ho, ?_⟩
  · refine hm.same (ops.flatMap ArithOp.targets) (fun o ho => ?_) (h2.mono ?_)
    · obtain ⟨d, hd, hdd, -⟩ := hS.1 o (hT o ho)
      exact ⟨d, hd, hdd⟩
    · rintro b k ⟨op, hop, o, ho, hc⟩
      exact ⟨o, List.mem_flatMap.2 ⟨op, hop, ho⟩, hc⟩
  · intro o d i j hd hi hj hne
    rw [Mem.read_eq hd, Mem.read_eq (m := ⟨h', m.objs⟩) hd]
    by_cases hdd : d.data = none
    · have q1 : assertM (decide (i < d.rows)) = .ok () := assertM_eq_ok.2 (decide_eq_true hi)
      have q2 : assertM (decide (j < d.cols)) = .ok () := assertM_eq_ok.2 (decide_eq_true hj)
      simp only [DObj.read, DObj.access, hdd, DObj.elem, q1, q2, except_bind_ok]
      rfl
    have hok := hm.inv.ok hd hdd
    obtain ⟨b, hb, -, ha⟩ := hok.access hi hj
    obtain ⟨b', hb', r1⟩ := (hok.ext h2.ext).read hi hj
    obtain ⟨b'', hb'', r2⟩ := hok.read hi hj
    obtain rfl : b = b' := Option.some.inj (hb.symm.trans hb')
    obtain rfl : b = b'' := Option.some.inj (hb.symm.trans hb'')
    rw [r1, r2, h2.2.2]
    rintro ⟨op, hop, t, ht, e, he, hc⟩
    obtain ⟨e', he', hee, -⟩ := hS.1 t (hT t (List.mem_flatMap.2 ⟨op, hop, ht⟩))
    obtain rfl := Option.some.inj (he.symm.trans he')
    obtain ⟨i', hi', j', hj', ha'⟩ := (hm.inv.ok he hee).access_cell.1 hc
    exact hne op hop t ht e he i' hi' j' hj' (ha'.trans ha.symm)

/-- C63: `gemm(A, B, C, alpha, beta, TransA, TransB)` in entries, for matrices stored
anywhere as long as `C` has no stored element in common with `A` and `B`. -/
theorem C63_gemm (K : QrKernels R) {m : Mem R} (hm : Reach m) {a b c : Nat} (hS : m.Separate [a, b, c])
    (hca : c ≠ a) (hcb : c ≠ b) {A B C : Dense R} (hA : m.Shows a A) (hB : m.Shows b B) (hC : m.Shows c C)
    {k : Nat} {ta tb : Bool} (h1 : (if ta then (A.cols, A.rows) else (A.rows, A.cols)) = (C.rows, k))
    (h2 : (if tb then (B.cols, B.rows) else (B.rows, B.cols)) = (k, C.cols)) (α β : R) :
    ∃ m', m.arithRun K [.gemm a b c α β ta tb] = .ok m' ∧
      ∀ i < C.rows, ∀ j < C.cols, m'.read c i j =
        .ok (α * ∑ l ∈ range k, (if ta then A.val l i else A.val i l) * (if tb then B.val j l else B.val l j) +
          β * C.val i j) := by
  let V : Nat → Dense R := fun o => if o = a then A else if o = b then B else C
  have va : V a = A := if_pos rfl
  have vb : ∀ i < B.rows, ∀ j < B.cols, (V b).rows = B.rows ∧ (V b).cols = B.cols ∧
      (V b).val i j = B.val i j := by
    intro i hi j hj
    by_cases hab : b = a
    · subst hab
      obtain ⟨⟨d, hd, d1, d2⟩, hr1⟩ := hA
      obtain ⟨⟨e, he, e1, e2⟩, hr2⟩ := hB
      obtain rfl := Option.some.inj (hd.symm.trans he)
      rw [va]
      exact ⟨d1.symm.trans e1, d2.symm.trans e2, Except.ok.inj
        ((hr1 i (by omega) j (by omega)).symm.trans (hr2 i hi j hj))⟩
    · have : V b = B := by simp only [V, if_neg hab, if_true]
      rw [this]; exact ⟨rfl, rfl, rfl⟩
  have vc : V c = C := by simp only [V, if_neg hca, if_neg hcb]
  have hVb : m.Shows b (V b) := by
    by_cases hab : b = a
    · subst hab; rw [va]; exact hA
    · have : V b = B := by simp only [V, if_neg hab, if_true]
      rw [this]; exact hB
  have hB0 : 0 < B.rows ∧ 0 < B.cols := by
    obtain ⟨d, hd, -, hr, hc⟩ := hS.1 b (by simp)
    obtain ⟨⟨e, he, e1, e2⟩, -⟩ := hB
    obtain rfl := Option.some.inj (hd.symm.trans he)
    exact ⟨e1 ▸ hr, e2 ▸ hc⟩
  obtain ⟨b1, b2, -⟩ := vb 0 hB0.1 0 hB0.2
  have hV : ∀ o ∈ [a, b, c], m.Shows o (V o) := by
    intro o ho
    simp only [List.mem_cons, List.not_mem_nil, or_false] at ho
    rcases ho with rfl | rfl | rfl
    · rw [va]; exact hA
    · exact hVb
    · rw [vc]; exact hC
  obtain ⟨m', r1, -, -, r2, -⟩ := C63_program K hm hS hV (ops := [.gemm a b c α β ta tb])
    (V' := setVal (fun o => (V o).clip) c ⟨C.rows, C.cols, fun i j =>
      α * (∑ l ∈ range k, A.clip.opVal ta i l * (V b).clip.opVal tb l j) + β * C.clip.val i j⟩)
    (by
      intro op hop
      rw [List.mem_singleton.1 hop]
      exact ⟨by simp [ArithOp.targets, ArithOp.operands], fun _ => by
        simp [ArithOp.targets, ArithOp.operands, hca, hcb]⟩)
    (by
      simp only [valRun, valStep, except_bind_eq_ok]
      refine ⟨_, ⟨_, ?_, rfl⟩, rfl⟩
      simp only [Dense.gemm, except_bind_eq_ok, assertM_eq_ok, decide_eq_true_eq, va, vc, Dense.clip, b1, b2]
      cases ta <;> cases tb <;>
        simp only [if_true, if_false, Bool.false_eq_true, Prod.mk.injEq] at h1 h2 ⊢ <;>
        obtain ⟨x1, x2⟩ := h1 <;> obtain ⟨y1, y2⟩ := h2 <;>
        exact ⟨(), by omega, (), by omega, (), by omega, by rw [x2]⟩)
  refine ⟨m', r1, fun i hi j hj => ?_⟩
  have := (r2 c (by simp)).2 i (by simp only [setVal, if_true, Dense.clip]; exact hi) j
    (by simp only [setVal, if_true, Dense.clip]; exact hj)
  rw [this]
  simp only [setVal, if_true]
  simp only [Dense.clip, hi, hj, and_self, if_true]
  congr 3
  refine sum_congr rfl fun l hl => ?_
  have hl' := mem_range.1 hl
  cases ta <;> cases tb <;>
    simp only [if_true, if_false, Bool.false_eq_true, Prod.mk.injEq, Dense.opVal] at h1 h2 ⊢ <;>
    rw [if_pos (by omega), if_pos (by omega), (vb _ (by omega) _ (by omega)).2.2]

/-- C63: `A += B` adds entry by entry: also when `B` is larger than `A`, and when `B` is
`A` itself. -/
theorem C63_add (K : QrKernels R) {m : Mem R} (hm : Reach m) {a b : Nat} (hS : m.Separate [a, b])
    {A B : Dense R} (hA : m.Shows a A) (hB : m.Shows b B) (h1 : A.rows ≤ B.rows) (h2 : A.cols ≤ B.cols) :
    ∃ m', m.arithRun K [.add a b] = .ok m' ∧
      ∀ i < A.rows, ∀ j < A.cols, m'.read a i j = .ok (A.val i j + B.val i j) := by
  let V : Nat → Dense R := fun o => if o = b then B else A
  have vb : V b = B := if_pos rfl
  have va : (V a).rows = A.rows ∧ (V a).cols = A.cols ∧
      ∀ i < A.rows, ∀ j < A.cols, (V a).val i j = A.val i j := by
    by_cases hab : a = b
    · subst hab
      obtain ⟨⟨d, hd, d1, d2⟩, hr1⟩ := hA
      obtain ⟨⟨e, he, e1, e2⟩, hr2⟩ := hB
      obtain rfl := Option.some.inj (hd.symm.trans he)
      rw [vb]
      exact ⟨by omega, by omega, fun i hi j hj => Except.ok.inj
        ((hr2 i (by omega) j (by omega)).symm.trans (hr1 i hi j hj))⟩
    · have : V a = A := if_neg hab
      rw [this]; exact ⟨rfl, rfl, fun _ _ _ _ => rfl⟩
  have hVa : m.Shows a (V a) := by
    refine ⟨?_, fun i hi j hj => ?_⟩
    · rw [va.1, va.2.1]; exact hA.1
    · rw [va.1] at hi
      rw [va.2.1] at hj
      rw [va.2.2 i hi j hj]
      exact hA.2 i hi j hj
  have hV : ∀ o ∈ [a, b], m.Shows o (V o) := by
    intro o ho
    simp only [List.mem_cons, List.not_mem_nil, or_false] at ho
    rcases ho with rfl | rfl
    · exact hVa
    · rw [vb]; exact hB
  obtain ⟨m', r1, -, -, r2, -⟩ := C63_program K hm hS hV (ops := [.add a b])
    (V' := setVal (fun o => (V o).clip) a ⟨A.rows, A.cols, fun i j => (V a).clip.val i j + B.clip.val i j⟩)
    (by
      intro op hop
      rw [List.mem_singleton.1 hop]
      exact ⟨by simp [ArithOp.targets, ArithOp.operands], fun h => by cases h⟩)
    (by
      simp only [valRun, valStep, except_bind_eq_ok]
      refine ⟨_, ⟨_, ?_, rfl⟩, rfl⟩
      simp only [Dense.addAssign, except_bind_eq_ok, assertM_eq_ok, decide_eq_true_eq, vb, Dense.clip, va.1,
        va.2.1]
      exact ⟨(), Or.inr (Or.inr ⟨h1, h2⟩), trivial⟩)
  refine ⟨m', r1, fun i hi j hj => ?_⟩
  have := (r2 a (by simp)).2 i (by simp only [setVal, if_true, Dense.clip]; exact hi) j
    (by simp only [setVal, if_true, Dense.clip]; exact hj)
  rw [this]
  simp only [setVal, if_true]
  simp only [Dense.clip, hi, hj, and_self, if_true, va.1, va.2.1, va.2.2 i hi j hj]
  rw [if_pos ⟨by omega, by omega⟩]

/-! ### tiles -/

omit [DecidableEq R] in
/-- C63: the tiles of a split without copying along partitions into non-empty ranges
have no stored element in common. -/
theorem C63_tiles_separate {m m' : Mem R} (hm : Reach m) {o : Nat} {rs cs : List (Nat × Nat)} {d : DObj}
    (ho : m.objs[o]? = some d) (hd : d.data ≠ none) (hrp : Tiles d.rows rs) (hcp : Tiles d.cols cs)
    (hr0 : ∀ r ∈ rs, 0 < r.2) (hc0 : ∀ c ∈ cs, 0 < c.2)
    (hs : m.step (.splitView o rs cs) = .ok m') :
    m'.Separate ((List.range (rs.length * cs.length)).map (m.objs.length + ·)) := by
  have hok : d.Ok m.heap := hm.inv.ok ho hd
  obtain ⟨hh, hobjs⟩ := splitView_objs ho hs
  have hx : ∀ x ∈ (List.range (rs.length * cs.length)).map (m.objs.length + ·), ∃ p q r c,
      rs[p]? = some r ∧ cs[q]? = some c ∧ x = m.objs.length + (p * cs.length + q) := by
    intro x hx
    obtain ⟨y, hy, rfl⟩ := List.mem_map.1 hx
    have hy' := List.mem_range.1 hy
    have hcl : 0 < cs.length := by
      rcases Nat.eq_zero_or_pos cs.length with h | h
      · rw [h] at hy'; omega
      · exact h
    have hp : y / cs.length < rs.length := (Nat.div_lt_iff_lt_mul hcl).2 hy'
    have hq : y % cs.length < cs.length := Nat.mod_lt _ hcl
    exact ⟨y / cs.length, y % cs.length, _, _, List.getElem?_eq_getElem hp, List.getElem?_eq_getElem hq, by
      rw [Nat.mul_comm (y / _), Nat.div_add_mod]⟩
  constructor
  · intro x hxm
    obtain ⟨p, q, r, c, hp, hq, rfl⟩ := hx x hxm
    exact ⟨_, splitView_child ho hs hp hq, hd, hr0 r (List.mem_of_getElem? hp),
      hc0 c (List.mem_of_getElem? hq)⟩
  · intro x hxm y hym hne e1 e2 he1 he2
    obtain ⟨p, q, r, c, hp, hq, rfl⟩ := hx x hxm
    obtain ⟨p', q', r', c', hp', hq', rfl⟩ := hx y hym
    obtain rfl := Option.some.inj ((splitView_child ho hs hp hq).symm.trans he1)
    obtain rfl := Option.some.inj ((splitView_child ho hs hp' hq').symm.trans he2)
    have hr := hrp.rangesIn r (List.mem_of_getElem? hp)
    have hc := hcp.rangesIn c (List.mem_of_getElem? hq)
    have hr' := hrp.rangesIn r' (List.mem_of_getElem? hp')
    have hc' := hcp.rangesIn c' (List.mem_of_getElem? hq')
    rw [hh, (hok.block hr hc).apart (hok.block hr' hc')]
    rintro b k ⟨-, i, hi, j, hj, rfl⟩ ⟨-, i', hi', j', hj', he⟩
    rw [DObj.loc_block hok, DObj.loc_block hok] at he
    change i < r.2 at hi
    change j < c.2 at hj
    change i' < r'.2 at hi'
    change j' < c'.2 at hj'
    obtain ⟨e1, e2⟩ := hok.loc_inj (by omega) (by omega) he
    apply hne
    have hpp : p = p' := by
      rcases Nat.lt_trichotomy p p' with h | h | h
      · have := (TilesFrom.spec hrp).2.2.1 p p' r r' hp hp' h; omega
      · exact h
      · have := (TilesFrom.spec hrp).2.2.1 p' p r' r hp' hp h; omega
    have hqq : q = q' := by
      rcases Nat.lt_trichotomy q q' with h | h | h
      · have := (TilesFrom.spec hcp).2.2.1 q q' c c' hq hq' h; omega
      · exact h
      · have := (TilesFrom.spec hcp).2.2.1 q' q c' c hq' hq h; omega
    rw [hpp, hqq]

/-- C63: a matrix is split without copying, and a program works in place on the tiles.
Afterwards the matrix itself consists of the results: entry `(i,j)` of the result for
tile `(p,q)` is the entry of the matrix at that place. -/
theorem C63_tiles (K : QrKernels R) {m m' : Mem R} (hm : Reach m) {o : Nat} {rs cs : List (Nat × Nat)}
    {d : DObj} (ho : m.objs[o]? = some d) (hd : d.data ≠ none) (hrp : Tiles d.rows rs)
    (hcp : Tiles d.cols cs) (hr0 : ∀ r ∈ rs, 0 < r.2) (hc0 : ∀ c ∈ cs, 0 < c.2)
    (hs : m.step (.splitView o rs cs) = .ok m') {D : Dense R} (hD : m.Shows o D) {V : Nat → Dense R}
    (hV : ∀ (p q : Nat) (r c : Nat × Nat), rs[p]? = some r → cs[q]? = some c →
      V (m.objs.length + (p * cs.length + q)) = D.sub r.1 c.1 r.2 c.2)
    {ops : List (ArithOp R)}
    (hu : ∀ op ∈ ops, op.Uses ((List.range (rs.length * cs.length)).map (m.objs.length + ·)))
    {V' : Nat → Dense R} (hrun : valRun K (fun o => (V o).clip) ops = .ok V') :
    ∃ m1, m'.arithRun K ops = .ok m1 ∧
      ∀ (p q : Nat) (r c : Nat × Nat), rs[p]? = some r → cs[q]? = some c → ∀ i < r.2, ∀ j < c.2,
        m1.read o (r.1 + i) (c.1 + j) = .ok ((V' (m.objs.length + (p * cs.length + q))).val i j) := by
  have hv : MemOp.Valid m (.splitView o rs cs) := ⟨d, ho, hd, hrp.rangesIn, hcp.rangesIn⟩
  have hm' : Reach m' := hm.step hv hs
  have hsep := C63_tiles_separate hm ho hd hrp hcp hr0 hc0 hs
  obtain ⟨hh, hobjs⟩ := splitView_objs ho hs
  obtain ⟨⟨d', hd', d1, d2⟩, hD2⟩ := hD
  obtain rfl := Option.some.inj (ho.symm.trans hd')
  have hok' : d.Ok m'.heap := hh ▸ hm.inv.ok ho hd
  have hmem : ∀ (p q : Nat) (r c : Nat × Nat), rs[p]? = some r → cs[q]? = some c →
      m.objs.length + (p * cs.length + q) ∈ (List.range (rs.length * cs.length)).map (m.objs.length + ·) := by
    intro p q r c hp hq
    obtain ⟨hp', -⟩ := List.getElem?_eq_some_iff.1 hp
    obtain ⟨hq', -⟩ := List.getElem?_eq_some_iff.1 hq
    refine List.mem_map.2 ⟨_, List.mem_range.2 ?_, rfl⟩
    calc p * cs.length + q < p * cs.length + cs.length := by omega
      _ = (p + 1) * cs.length := by ring
      _ ≤ rs.length * cs.length := Nat.mul_le_mul_right _ hp'
  have hsub : ∀ (p q : Nat) (r c : Nat × Nat), rs[p]? = some r → cs[q]? = some c →
      m'.Shows (m.objs.length + (p * cs.length + q)) (D.sub r.1 c.1 r.2 c.2) := by
    intro p q r c hp hq
    have hr := hrp.rangesIn r (List.mem_of_getElem? hp)
    have hc := hcp.rangesIn c (List.mem_of_getElem? hq)
    refine ⟨⟨_, splitView_child ho hs hp hq, rfl, rfl⟩, fun i hi j hj => ?_⟩
    change i < r.2 at hi
    change j < c.2 at hj
    obtain ⟨v, h1, h2⟩ := C13_split_alias hm ho hv hs hp hq (ws := []) (by simp) rfl hi hj
    rw [h1, ← h2, Mem.read_eq (d := d) (by rw [hobjs]; exact getElem?_append_of_some ho _), hh,
      ← Mem.read_eq ho]
    exact hD2 _ (by omega) _ (by omega)
  obtain ⟨m1, r1, r2, r3, r4, -⟩ := C63_program K hm' hsep (V := V) (by
    intro x hx
    obtain ⟨y, hy, rfl⟩ := List.mem_map.1 hx
    have hy' := List.mem_range.1 hy
    have hcl : 0 < cs.length := by
      rcases Nat.eq_zero_or_pos cs.length with h | h
      · rw [h] at hy'; omega
      · exact h
    have hp : y / cs.length < rs.length := (Nat.div_lt_iff_lt_mul hcl).2 hy'
    have hq : y % cs.length < cs.length := Nat.mod_lt _ hcl
    have e : m.objs.length + y = m.objs.length + (y / cs.length * cs.length + y % cs.length) := by
      rw [Nat.mul_comm (y / _), Nat.div_add_mod]
    change m'.Shows (m.objs.length + y) (V (m.objs.length + y))
    rw [e, hV _ _ _ _ (List.getElem?_eq_getElem hp) (List.getElem?_eq_getElem hq)]
    exact hsub _ _ _ _ (List.getElem?_eq_getElem hp) (List.getElem?_eq_getElem hq)) hu hrun
  refine ⟨m1, r1, fun p q r c hp hq i hi j hj => ?_⟩
  have hr := hrp.rangesIn r (List.mem_of_getElem? hp)
  have hc := hcp.rangesIn c (List.mem_of_getElem? hq)
  have hch := splitView_child ho hs hp hq
  have hop : m1.objs[o]? = some d := by rw [r2, hobjs]; exact getElem?_append_of_some ho _
  have hok1 : d.Ok m1.heap := r3.inv.ok hop hd
  obtain ⟨⟨e, he, e1, e2⟩, hsh⟩ := r4 _ (hmem p q r c hp hq)
  rw [r2] at he
  obtain rfl := Option.some.inj (hch.symm.trans he)
  have h3 := hsh i (e1 ▸ hi) j (e2 ▸ hj)
  rw [← h3, Mem.read_eq hop, Mem.read_eq (by rw [r2]; exact hch)]
  obtain ⟨b, hb, h5⟩ := hok1.read (i := r.1 + i) (j := c.1 + j) (by omega) (by omega)
  obtain ⟨b', hb', h6⟩ := (hok1.block hr hc).read (i := i) (j := j) hi hj
  obtain rfl : b = b' := Option.some.inj (hb.symm.trans hb')
  rw [h5, h6, DObj.loc_block hok1]

/-! ### orthogonalisation -/

/-- C63: `mgs_qr(A, Q, R)` on dense matrices stored anywhere, `R` apart from `A` and the
rows of `A` without gaps: `Q` becomes the object that `A` was, with the orthonormal
factor as entries, and `R` gets the triangular factor. -/
theorem C63_mgs {m : Mem ℝ} (hm : Reach m) {a r : Nat} (har : a ≠ r) (hS : m.Separate [a, r]) {d e q : DObj}
    (hd : m.objs[a]? = some d) (he : m.objs[r]? = some e) (hg : d.Gapless) {A Rm : Dense ℝ}
    (hA : m.Shows a A) (hR : m.Shows r Rm) {x : Dense ℝ × Dense ℝ}
    (hx : Dense.mgsQr A.clip (Dense.zero q.rows q.cols) Rm.clip = .ok x) :
    ∃ h', DObj.mgsQr m.heap d q e = .ok (h', d, d.movedFrom) ∧
      (∀ i < A.rows, ∀ j < A.cols, d.read h' i j = .ok (x.1.val i j)) ∧
      ∀ i < Rm.rows, ∀ j < Rm.cols, e.read h' i j = .ok (x.2.val i j) := by
  let V : Nat → Dense ℝ := fun o => if o = a then A else Rm
  have va : V a = A := if_pos rfl
  have vr : V r = Rm := if_neg (fun h => har h.symm)
  have hV : ∀ o ∈ [a, r], m.Shows o (V o) := by
    intro o ho
    simp only [List.mem_cons, List.not_mem_nil, or_false] at ho
    rcases ho with rfl | rfl
    · rw [va]; exact hA
    · rw [vr]; exact hR
  have hrep := hS.memRep hm hV
  have hsep := hS.memSep hm
  have ha : a ∈ [a, r] := by simp
  have hr : r ∈ [a, r] := by simp
  obtain ⟨d', hd', a1, a2, a3, a4, a5, a6, a7, -⟩ := hrep.dims ha
  obtain rfl := Option.some.inj (hd.symm.trans hd')
  obtain ⟨e', he', b1, b2, b3, b4, b5, b6, b7, -⟩ := hrep.dims hr
  obtain rfl := Option.some.inj (he.symm.trans he')
  rw [va] at a1 a2
  rw [vr] at b1 b2
  change A.rows = _ at a1
  change A.cols = _ at a2
  change Rm.rows = _ at b1
  change Rm.cols = _ at b2
  have hokd := hm.inv.ok hd a7
  have hoke := hm.inv.ok he b7
  have hloc : ∀ i < d.rows, ∀ j, (d.arg d.rows d.cols d.cols).loc i j = d.loc i j := by
    intro i hi j
    unfold DObj.loc DObj.arg
    simp only
    rcases hg with h | h | h
    · obtain rfl : i = 0 := by omega
      simp
    · omega
    · rw [h]
  have hcell : ∀ b k, (d.arg d.rows d.cols d.cols).Cell b k → d.Cell b k := by
    rintro b k ⟨h1, i, hi, j, hj, hk⟩
    exact ⟨h1, i, hi, j, hj, hk.trans (hloc i hi j)⟩
  have hread : (d.arg d.rows d.cols d.cols).Readable m.heap := by
    intro i hi j hj
    obtain ⟨b, hb, hl, -⟩ := hokd.access (i := i) (j := j) hi hj
    exact ⟨b, hb, by rw [hloc i hi j]; exact hl⟩
  have hval : (d.arg d.rows d.cols d.cols).value m.heap = A.clip := by
    obtain ⟨d', hd', -, -, -, hv⟩ := hrep a ha
    obtain rfl := Option.some.inj (hd.symm.trans hd')
    change (V a).clip = _ at hv
    rw [va] at hv
    rw [show A.clip = d.value m.heap from hv]
    unfold DObj.value
    congr 1
    funext i j
    by_cases hc : i < d.rows ∧ j < d.cols
    · rw [if_pos hc]
      refine (if_pos hc).trans ?_
      rw [hloc i hc.1]; rfl
    · rw [if_neg hc]
      exact if_neg hc
  have hvalr : e.value m.heap = Rm.clip := by
    obtain ⟨e', he', -, -, -, hv⟩ := hrep r hr
    obtain rfl := Option.some.inj (he.symm.trans he')
    change (V r).clip = _ at hv
    rw [vr] at hv
    exact hv.symm
  have hcon : DObj.contract [] [d.arg d.rows d.cols d.cols, e.arg e.rows e.cols e.stride] = .ok () := by
    refine contract_ok ?_ (fun _ _ _ hb => (nomatch hb)) (List.pairwise_pair.2 ?_)
    · intro u hu
      simp only [List.nil_append, List.mem_cons, List.not_mem_nil, or_false] at hu
      rcases hu with rfl | rfl
      · exact ⟨a4, Nat.le_refl _⟩
      · exact ⟨b5, b6⟩
    · exact DObj.shares_false (fun b k h1 h2 => hsep a ha r hr har d e hd he b k (hcell b k h1)
        (DObj.arg_cell (Nat.le_refl _) (Nat.le_refl _) h2)) a7
  obtain ⟨b, hb, -⟩ := id hokd
  obtain ⟨b', hb', -⟩ := id hoke
  obtain ⟨h1, s1, s2, s3⟩ := DObj.store_ok (a := d.arg d.rows d.cols d.cols) hb hread (Nat.le_refl _) x.1.val
  have hoke1 := hoke.ext s2.ext
  obtain ⟨h2, t1, t2, t3⟩ := DObj.store_ok (a := e) hb' (DObj.readable_of (Or.inl hoke1)) b6 x.2.val
  refine ⟨h2, ?_, ?_, ?_⟩
  · unfold DObj.mgsQr
    simp only [hcon, except_bind_ok, DObj.fetch_value hread, hval,
      DObj.fetch_value (DObj.readable_of (Or.inl hoke)), hvalr, hx, s1, t1]
  · intro i hi j hj
    rw [a1] at hi
    rw [a2] at hj
    obtain ⟨b2, hb2, hrd⟩ := ((hokd.ext s2.ext).ext t2.ext).read hi hj
    obtain rfl : b = b2 := Option.some.inj (hb.symm.trans hb2)
    rw [hrd, t2.2.2, ← hloc i hi j, s3 i hi j hj]
    exact hsep a ha r hr har d e hd he b _ ⟨hb, i, hi, j, hj, rfl⟩
  · intro i hi j hj
    rw [b1] at hi
    rw [b2] at hj
    obtain ⟨b2, hb2, hrd⟩ := (hoke1.ext t2.ext).read hi hj
    obtain rfl : b' = b2 := Option.some.inj (hb'.symm.trans hb2)
    rw [hrd, t3 i hi j hj]

/-! ### concrete cases -/

/-- A 2-by-4 matrix (0), its left and right halves (1, 2) and a 2-by-2 matrix (3). -/
def tilesMem : Mem ℚ :=
  { heap := [[1, 2, 0, 0, 3, 4, 0, 0], [5, 6, 7, 8]]
    objs := [⟨2, 4, 4, some 0, 0, 0, 0⟩, ⟨2, 2, 4, some 0, 0, 0, 0⟩, ⟨2, 2, 4, some 0, 0, 2, 2⟩,
      ⟨2, 2, 2, some 1, 0, 0, 0⟩] }

theorem tilesMem_reach : Reach tilesMem := by
  have h0 : Reach (⟨[], []⟩ : Mem ℚ) := Reach.start
  have h1 := h0.step (op := .new 2 4) trivial rfl
  have h2 := h1.step (op := .splitView 0 [(0, 2)] [(0, 2), (2, 2)])
    ⟨_, rfl, by decide, by simp [RangesIn, DObj.new, DObj.alloc], by simp [RangesIn, DObj.new, DObj.alloc]⟩ rfl
  have h3 := h2.step (op := .new 2 2) trivial rfl
  have h4 := h3.step (op := .write 0 0 0 1) ⟨_, rfl, by decide, by decide, by decide⟩ rfl
  have h5 := h4.step (op := .write 0 0 1 2) ⟨_, rfl, by decide, by decide, by decide⟩ rfl
  have h6 := h5.step (op := .write 0 1 0 3) ⟨_, rfl, by decide, by decide, by decide⟩ rfl
  have h7 := h6.step (op := .write 0 1 1 4) ⟨_, rfl, by decide, by decide, by decide⟩ rfl
  have h8 := h7.step (op := .write 3 0 0 5) ⟨_, rfl, by decide, by decide, by decide⟩ rfl
  have h9 := h8.step (op := .write 3 0 1 6) ⟨_, rfl, by decide, by decide, by decide⟩ rfl
  have h10 := h9.step (op := .write 3 1 0 7) ⟨_, rfl, by decide, by decide, by decide⟩ rfl
  exact h10.step (op := .write 3 1 1 8) ⟨_, rfl, by decide, by decide, by decide⟩ rfl

theorem tilesMem_separate : tilesMem.Separate [1, 3, 2] := by
  constructor
  · intro o ho
    simp only [List.mem_cons, List.not_mem_nil, or_false] at ho
    rcases ho with rfl | rfl | rfl <;> exact ⟨_, rfl, by decide, by decide, by decide⟩
  · intro o ho o' ho' hne d e hd he i hi j hj i' hi' j' hj'
    simp only [List.mem_cons, List.not_mem_nil, or_false] at ho ho'
    rcases ho with rfl | rfl | rfl <;> rcases ho' with rfl | rfl | rfl <;>
      first
      | exact absurd rfl hne
      | (cases Option.some.inj hd
         cases Option.some.inj he
         change i < 2 at hi; change j < 2 at hj; change i' < 2 at hi'; change j' < 2 at hj'
         interval_cases i <;> interval_cases j <;> interval_cases i' <;> interval_cases j' <;>
           simp [DObj.access, DObj.elem, assertM, tilesMem])

/-- The left half times matrix 3 into the right half: `gemm` on two tiles of one matrix.
Entry `(1,2)` of the whole matrix is then `3·5 + 4·7`. -/
example (K : QrKernels ℚ) : ∃ m', tilesMem.arithRun K [.gemm 1 3 2 1 0 false false] = .ok m' ∧
    m'.read 2 1 0 = .ok 43 := by
  obtain ⟨m', h1, h2⟩ := C63_gemm K tilesMem_reach tilesMem_separate (by decide) (by decide)
    (A := ⟨2, 2, fun i j => if i = 0 then (if j = 0 then 1 else 2) else if j = 0 then 3 else 4⟩)
    (B := ⟨2, 2, fun i j => if i = 0 then (if j = 0 then 5 else 6) else if j = 0 then 7 else 8⟩)
    (C := ⟨2, 2, fun _ _ => 0⟩)
    ⟨⟨_, rfl, rfl, rfl⟩, fun i (hi : i < 2) j (hj : j < 2) => by interval_cases i <;> interval_cases j <;> rfl⟩
    ⟨⟨_, rfl, rfl, rfl⟩, fun i (hi : i < 2) j (hj : j < 2) => by interval_cases i <;> interval_cases j <;> rfl⟩
    ⟨⟨_, rfl, rfl, rfl⟩, fun i (hi : i < 2) j (hj : j < 2) => by interval_cases i <;> interval_cases j <;> rfl⟩
    (k := 2) (ta := false) (tb := false) rfl rfl 1 0
  refine ⟨m', h1, ?_⟩
  rw [h2 1 (by decide) 0 (by decide)]
  norm_num [sum_range_succ]

/-- The hypotheses of `C63_tiles` for this matrix: the program scales the left half by 10
and adds it to the right half, which is then the right half of the whole matrix. -/
example (K : QrKernels ℚ) : ∃ m' m1, tilesMem.step (.splitView 0 [(0, 2)] [(0, 2), (2, 2)]) = .ok m' ∧
    m'.arithRun K [.scale 4 10, .add 5 4] = .ok m1 ∧ m1.read 0 1 3 = .ok 40 := by
  have hs : tilesMem.step (.splitView 0 [(0, 2)] [(0, 2), (2, 2)]) = .ok _ := rfl
  let D : Dense ℚ := ⟨2, 4, fun i j => ([[1, 2, 0, 0], [3, 4, 0, 0]].getD i []).getD j 0⟩
  let V : Nat → Dense ℚ := fun x => if x = 4 then D.sub 0 0 2 2 else D.sub 0 2 2 2
  let V1 := setVal (fun o => (V o).clip) 4 (((V 4).clip).scale 10)
  obtain ⟨m1, h1, h2⟩ := C63_tiles K tilesMem_reach (o := 0) rfl (by decide) (rs := [(0, 2)])
    (cs := [(0, 2), (2, 2)]) (by simp [Tiles, TilesFrom]) (by simp [Tiles, TilesFrom]) (by simp) (by simp) hs
    (D := D) ⟨⟨_, rfl, rfl, rfl⟩, fun i (hi : i < 2) j (hj : j < 4) => by
      interval_cases i <;> interval_cases j <;> rfl⟩
    (V := V) (by
      intro p q r c hp hq
      match p, q with
      | 0, 0 => cases Option.some.inj hp; cases Option.some.inj hq; rfl
      | 0, 1 => cases Option.some.inj hp; cases Option.some.inj hq; rfl
      | 0, _ + 2 => cases hq
      | _ + 1, _ => cases hp)
    (ops := [.scale 4 10, .add 5 4])
    (by
      intro op hop
      simp only [List.mem_cons, List.not_mem_nil, or_false] at hop
      rcases hop with rfl | rfl
      · exact ⟨by decide, fun h => by cases h⟩
      · exact ⟨by decide, fun h => by cases h⟩)
    (V' := setVal V1 5 ⟨2, 2, fun i j => (V1 5).val i j + (V1 4).val i j⟩) rfl
  refine ⟨_, m1, hs, h1, ?_⟩
  have h3 : m1.read 0 1 3 = .ok (((V 5).clip.val 1 1 : ℚ) + (V 4).clip.val 1 1 * 10) :=
    h2 0 1 (0, 2) (2, 2) rfl rfl 1 (by decide) 1 (by decide)
  rw [h3]
  simp [V, D, Dense.clip, Dense.sub]
  norm_num

/-! ### what fails without the hypotheses -/

/-- A 1-by-3 matrix of ones (0) and the overlapping views of its columns 0-1 (1) and
1-2 (2). -/
def overlapMem : Mem ℚ :=
  { heap := [[1, 1, 1]]
    objs := [⟨1, 3, 3, some 0, 0, 0, 0⟩, ⟨1, 2, 3, some 0, 0, 0, 0⟩, ⟨1, 2, 3, some 0, 0, 1, 1⟩] }

theorem overlapMem_reach : Reach overlapMem := by
  have h0 : Reach (⟨[], []⟩ : Mem ℚ) := Reach.start
  have h1 := h0.step (op := .new 1 3) trivial rfl
  have h2 := h1.step (op := .fill 0 1) ⟨_, rfl, Or.inl (by decide)⟩ rfl
  exact h2.step (op := .splitView 0 [(0, 1)] [(0, 2), (1, 2)])
    ⟨_, rfl, by decide, by simp [RangesIn, DObj.new, DObj.alloc], by simp [RangesIn, DObj.new, DObj.alloc]⟩ rfl

/-- C63: on overlapping matrices `+=` is not addition of the entries: the second sum
already uses the result of the first. -/
theorem C63_overlap_fails (K : QrKernels ℚ) :
    ¬ ∀ (m : Mem ℚ), Reach m → ∀ a b x y, m.Shows a x → m.Shows b y → x.rows = y.rows → x.cols = y.cols →
      ∃ m', m.arithRun K [.add a b] = .ok m' ∧
        ∀ i < x.rows, ∀ j < x.cols, m'.read a i j = .ok (x.val i j + y.val i j) := by
  intro h
  obtain ⟨m', h1, h2⟩ := h overlapMem overlapMem_reach 2 1 ⟨1, 2, fun _ _ => 1⟩ ⟨1, 2, fun _ _ => 1⟩
    ⟨⟨_, rfl, rfl, rfl⟩, fun i (hi : i < 1) j (hj : j < 2) => by interval_cases i; interval_cases j <;> rfl⟩
    ⟨⟨_, rfl, rfl, rfl⟩, fun i (hi : i < 1) j (hj : j < 2) => by interval_cases i; interval_cases j <;> rfl⟩
    rfl rfl
  obtain rfl := Except.ok.inj (h1.symm.trans (rfl : overlapMem.arithRun K [.add 2 1] = .ok _))
  have h3 : (Except.ok (1 + (1 + 1)) : Except Err ℚ) = .ok (1 + 1) := h2 0 (by decide) 1 (by decide)
  have := Except.ok.inj h3
  norm_num at this

/-- C63: with an empty inner dimension `gemm` passes leading dimension 0, which BLAS does
not allow, instead of scaling `C` by `beta`. -/
theorem C63_empty_inner_fails (K : QrKernels ℚ) {m : Mem ℚ} {a b c : Nat} {x y z : DObj}
    (ha : m.objs[a]? = some x) (hb : m.objs[b]? = some y) (hc : m.objs[c]? = some z) (h0 : x.stride = 0)
    (h1 : x.cols = 0) (h2 : y.rows = 0) (h3 : x.rows = z.rows) (h4 : y.cols = z.cols) (α β : ℚ) :
    m.arithRun K [.gemm a b c α β false false] = .error .ub := by
  have q1 : assertM (decide (x.rows = z.rows)) = .ok () := assertM_eq_ok.2 (decide_eq_true h3)
  have q2 : assertM (decide (x.cols = y.rows)) = .ok () := assertM_eq_ok.2 (decide_eq_true (by omega))
  have q3 : assertM (decide (y.cols = z.cols)) = .ok () := assertM_eq_ok.2 (decide_eq_true h4)
  have hn : DObj.contract [x.arg z.rows x.cols x.stride, y.arg x.cols z.cols y.stride]
      [z.arg z.rows z.cols z.stride] = .error .ub := by
    unfold DObj.contract
    rw [if_neg]
    rintro ⟨h, -⟩
    have := (h (x.arg z.rows x.cols x.stride) (by simp)).1
    simp only [DObj.arg, h0] at this
    omega
  simp only [Mem.arithRun, Mem.arith, Mem.obj, ha, hb, hc, except_bind_ok, DObj.gemm, if_false,
    Bool.false_eq_true, q1, q2, q3, hn]
  rfl

/-- Such matrices: `Dense(2, 0)`, `Dense(0, 2)` and `Dense(2, 2)`. -/
example (K : QrKernels ℚ) : ∃ m : Mem ℚ, Reach m ∧
    m.arithRun K [.gemm 0 1 2 1 1 false false] = .error .ub := by
  have h0 : Reach (⟨[], []⟩ : Mem ℚ) := Reach.start
  have h1 := h0.step (op := .new 2 0) trivial rfl
  have h2 := h1.step (op := .new 0 2) trivial rfl
  exact ⟨_, h2.step (op := .new 2 2) trivial rfl, C63_empty_inner_fails K
    (x := ⟨2, 0, 0, some 0, 0, 0, 0⟩) (y := ⟨0, 2, 2, some 1, 0, 0, 0⟩) (z := ⟨2, 2, 2, some 2, 0, 0, 0⟩)
    rfl rfl rfl rfl rfl rfl rfl rfl 1 1⟩

/-- A 2-by-2 matrix with rows `(3, 4)` and `(0, 0)` (0), its columns (1, 2) and a 1-by-1
matrix (3). -/
def colMem : Mem ℝ :=
  { heap := [[3, 4, 0, 0], [0]]
    objs := [⟨2, 2, 2, some 0, 0, 0, 0⟩, ⟨2, 1, 2, some 0, 0, 0, 0⟩, ⟨2, 1, 2, some 0, 0, 1, 1⟩,
      ⟨1, 1, 1, some 1, 0, 0, 0⟩] }

theorem colMem_reach : Reach colMem := by
  have h0 : Reach (⟨[], []⟩ : Mem ℝ) := Reach.start
  have h1 := h0.step (op := .new 2 2) trivial rfl
  have h2 := h1.step (op := .splitView 0 [(0, 2)] [(0, 1), (1, 1)])
    ⟨_, rfl, by decide, by simp [RangesIn, DObj.new, DObj.alloc], by simp [RangesIn, DObj.new, DObj.alloc]⟩ rfl
  have h3 := h2.step (op := .new 1 1) trivial rfl
  have h4 := h3.step (op := .write 0 0 0 3) ⟨_, rfl, by decide, by decide, by decide⟩ rfl
  exact h4.step (op := .write 0 0 1 4) ⟨_, rfl, by decide, by decide, by decide⟩ rfl

/-- One step of the orthogonalisation of a single column with norm 5. -/
theorem mgsQr_column {v z : Nat → Nat → ℝ} (h : v 0 0 ^ 2 + v 1 0 ^ 2 = 25) (Q : Dense ℝ) (hq : Q.rows = 2)
    (hq' : Q.cols = 1) : Dense.mgsQr ⟨2, 1, v⟩ Q ⟨1, 1, z⟩ =
      .ok (⟨2, 1, fun a b => if b = 0 then 1 / 5 * v a b else v a b⟩,
        ⟨1, 1, fun a b => if a = 0 ∧ b = 0 then 5 else z a b⟩) := by
  have hn : Real.sqrt (∑ i ∈ range 2, v i 0 ^ 2) = 5 := by
    rw [sum_range_succ, sum_range_one, h, show (25 : ℝ) = 5 ^ 2 by norm_num]
    exact Real.sqrt_sq (by norm_num)
  have q1 : assertM (decide (Q.rows = 2)) = .ok () := assertM_eq_ok.2 (decide_eq_true hq)
  have q2 : assertM (decide (Q.cols = 1)) = .ok () := assertM_eq_ok.2 (decide_eq_true hq')
  have hl : loop 1 (fun j st => Dense.mgsStep 2 1 j st) (v, z) = Dense.mgsStep 2 1 0 (v, z) := by
    simp only [loop, except_bind_ok]
  unfold Dense.mgsQr
  simp only [q1, q2, except_bind_ok, hl]
  unfold Dense.mgsStep
  simp only [hn]
  rw [if_neg (by norm_num)]
  rfl

/-- C63: for a matrix with gaps between its rows `mgs_qr` uses the wrong elements.  For
column 0 of the matrix, which is `(3, 0)`, it finds the norm 5 instead of 3 and changes
an entry of column 1. -/
theorem C63_mgs_view_fails : ∃ h', DObj.mgsQr colMem.heap ⟨2, 1, 2, some 0, 0, 0, 0⟩ ⟨2, 1, 1, none, 0, 0, 0⟩
      ⟨1, 1, 1, some 1, 0, 0, 0⟩ = .ok (h', ⟨2, 1, 2, some 0, 0, 0, 0⟩, ⟨2, 1, 2, none, 0, 0, 0⟩) ∧
    (colMem.Shows 1 ⟨2, 1, fun i _ => if i = 0 then 3 else 0⟩ ∧
      DObj.read h' ⟨1, 1, 1, some 1, 0, 0, 0⟩ 0 0 = .ok 5) ∧
    colMem.read 0 0 1 = .ok 4 ∧ Mem.read ⟨h', colMem.objs⟩ 0 0 1 = .ok (4 / 5) := by
  have hf : DObj.fetch colMem.heap (DObj.arg ⟨2, 1, 2, some 0, 0, 0, 0⟩ 2 1 1) = .ok _ :=
    DObj.fetch_value (by
      intro i (hi : i < 2) j (hj : j < 1)
      interval_cases i <;> interval_cases j <;> exact ⟨0, rfl, by decide⟩)
  have hg : DObj.fetch colMem.heap ⟨1, 1, 1, some 1, 0, 0, 0⟩ = .ok _ :=
    DObj.fetch_value (by
      intro i (hi : i < 1) j (hj : j < 1)
      interval_cases i; interval_cases j; exact ⟨1, rfl, by decide⟩)
  have hcon : DObj.contract [] [DObj.arg ⟨2, 1, 2, some 0, 0, 0, 0⟩ 2 1 1,
      DObj.arg ⟨1, 1, 1, some 1, 0, 0, 0⟩ 1 1 1] = .ok () := by decide
  refine ⟨[[1 / 5 * 3, 1 / 5 * 4, 0, 0], [5]], ?_, ⟨⟨⟨_, rfl, rfl, rfl⟩, ?_⟩, rfl⟩, rfl, ?_⟩
  · simp only [DObj.mgsQr, hcon, except_bind_ok, hf, hg]
    rw [show DObj.value colMem.heap (DObj.arg ⟨2, 1, 2, some 0, 0, 0, 0⟩ 2 1 1) = ⟨2, 1, _⟩ from rfl,
      show DObj.value colMem.heap ⟨1, 1, 1, some 1, 0, 0, 0⟩ = ⟨1, 1, _⟩ from rfl]
    rw [mgsQr_column (by
      change (3 : ℝ) ^ 2 + 4 ^ 2 = 25
      norm_num) _ rfl rfl]
    rfl
  · intro i (hi : i < 2) j (hj : j < 1)
    interval_cases i <;> interval_cases j <;> rfl
  · change (Except.ok (1 / 5 * 4) : Except Err ℝ) = _
    congr 1
    norm_num

/-- The hypotheses of `C63_mgs` for the whole matrix with rows `(3)` and `(4)`. -/
example : ∃ m : Mem ℝ, Reach m ∧ m.Separate [0, 1] ∧ m.Shows 0 ⟨2, 1, fun i _ => if i = 0 then 3 else 4⟩ ∧
    m.Shows 1 ⟨1, 1, fun _ _ => 0⟩ ∧ (∃ d, m.objs[0]? = some d ∧ d.Gapless) ∧
    ∃ x, Dense.mgsQr (Dense.clip ⟨2, 1, fun i _ => if i = 0 then 3 else 4⟩) (Dense.zero 2 1)
      (Dense.clip ⟨1, 1, fun _ _ => 0⟩) = .ok x := by
  have h0 : Reach (⟨[], []⟩ : Mem ℝ) := Reach.start
  have h1 := h0.step (op := .new 2 1) trivial rfl
  have h2 := h1.step (op := .new 1 1) trivial rfl
  have h3 := h2.step (op := .write 0 0 0 3) ⟨_, rfl, by decide, by decide, by decide⟩ rfl
  have h4 := h3.step (op := .write 0 1 0 4) ⟨_, rfl, by decide, by decide, by decide⟩ rfl
  refine ⟨_, h4, ⟨?_, ?_⟩, ⟨⟨_, rfl, rfl, rfl⟩, ?_⟩, ⟨⟨_, rfl, rfl, rfl⟩, ?_⟩, ⟨_, rfl, Or.inr (Or.inr rfl)⟩,
    ⟨_, mgsQr_column ?_ _ rfl rfl⟩⟩
  · intro o ho
    simp only [List.mem_cons, List.not_mem_nil, or_false] at ho
    rcases ho with rfl | rfl <;> exact ⟨_, rfl, by decide, by decide, by decide⟩
  · intro o ho o' ho' hne d e hd he
    simp only [List.mem_cons, List.not_mem_nil, or_false] at ho ho'
    rcases ho with rfl | rfl <;> rcases ho' with rfl | rfl <;>
      first
      | exact absurd rfl hne
      | (cases Option.some.inj hd
         cases Option.some.inj he
         rw [(h4.inv.ok hd (by decide)).apart (h4.inv.ok he (by decide))]
         rintro b k ⟨x, -⟩ ⟨y, -⟩
         cases Option.some.inj x
         cases Option.some.inj y)
  · intro i (hi : i < 2) j (hj : j < 1)
    interval_cases i <;> interval_cases j <;> rfl
  · intro i (hi : i < 1) j (hj : j < 1)
    interval_cases i; interval_cases j; rfl
  · norm_num

end Verif
