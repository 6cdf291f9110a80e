import Verif.Lemmas.HeapGemmRec
import Verif.Lemmas.HeapOpsRun
import Verif.Props.Gemm
import Verif.Props.HeapOps

/-
Products of structured matrices written into a matrix that is part of a larger one (C69).
-/

namespace Verif
open Finset

variable {R : Type} [Field R] [DecidableEq R]

omit [DecidableEq R] in
theorem Mem.Shows.holds {m : Mem R} (hm : Reach m) {c : Nat} {d : DObj} (hd : m.objs[c]? = some d)
    (hdd : d.data ≠ none) {C : Dense R} (hC : m.Shows c C) :
    d.Ok m.heap ∧ (Tgt.dense d).Holds m.heap (.dense C) := by
  have hok := hm.inv.ok hd hdd
  obtain ⟨⟨d', hd', e1, e2⟩, h3⟩ := hC
  obtain rfl := Option.some.inj (hd.symm.trans hd')
  refine ⟨hok, e1.symm, e2.symm, fun i hi j hj => ?_⟩
  have := h3 i (by omega) j (by omega)
  obtain ⟨b, hb, hr⟩ := hok.read hi hj
  rw [Mem.read_eq hd, hr] at this
  rw [hb]
  exact Except.ok.inj this

omit [DecidableEq R] in
theorem Mem.shows_of_holds {m : Mem R} (hm : Reach m) {c : Nat} {d : DObj} (hd : m.objs[c]? = some d)
    (hdd : d.data ≠ none) {C : Dense R} {h' : Heap R} (hs : m.heap.Same d.Cell h')
    (hC : (Tgt.dense d).Holds h' (.dense C)) : Mem.Shows ⟨h', m.objs⟩ c C := by
  have hok := (hm.inv.ok hd hdd).ext hs.ext
  refine ⟨⟨d, hd, hC.1.symm, hC.2.1.symm⟩, fun i hi j hj => ?_⟩
  rw [hC.1] at hi
  rw [hC.2.1] at hj
  obtain ⟨b, hb, hr⟩ := hok.read hi hj
  have := hC.2.2 i hi j hj
  rw [hb] at this
  rw [Mem.read_eq (m := ⟨h', m.objs⟩) hd, hr]
  exact congrArg Except.ok this

omit [DecidableEq R] in
theorem Mem.read_of_same {m : Mem R} (hm : Reach m) {c : Nat} {d : DObj} (hd : m.objs[c]? = some d)
    (hdd : d.data ≠ none) {h' : Heap R} (hs : m.heap.Same d.Cell h') {o : Nat} {e : DObj} {i j : Nat}
    (he : m.objs[o]? = some e) (hi : i < e.rows) (hj : j < e.cols)
    (hne : ∀ i' < d.rows, ∀ j' < d.cols, d.access m.heap i' j' ≠ e.access m.heap i j) :
    Mem.read ⟨h', m.objs⟩ o i j = m.read o i j := by
  rw [Mem.read_eq he, Mem.read_eq (m := ⟨h', m.objs⟩) he]
  by_cases hee : e.data = none
  · have q1 : assertM (decide (i < e.rows)) = .ok () := assertM_eq_ok.2 (decide_eq_true hi)
    have q2 : assertM (decide (j < e.cols)) = .ok () := assertM_eq_ok.2 (decide_eq_true hj)
    simp only [DObj.read, DObj.access, hee, DObj.elem, q1, q2, except_bind_ok]
    rfl
  have hok := hm.inv.ok he hee
  obtain ⟨b, hb, -, ha⟩ := hok.access hi hj
  obtain ⟨b', hb', r1⟩ := (hok.ext hs.ext).read hi hj
  obtain ⟨b'', hb'', r2⟩ := hok.read hi hj
  obtain rfl : b = b' := Option.some.inj (hb.symm.trans hb')
  obtain rfl : b = b'' := Option.some.inj (hb.symm.trans hb'')
  rw [r1, r2, hs.2.2]
  intro hc
  obtain ⟨i', hi', j', hj', ha'⟩ := (hm.inv.ok hd hdd).access_cell.1 hc
  exact hne i' hi' j' hj' (ha'.trans ha.symm)

omit [DecidableEq R] in
/-- Two matrices that share an element read the same value there. -/
theorem Mem.read_alias {m : Mem R} (hm : Reach m) {h' : Heap R} (r2 : Reach ⟨h', m.objs⟩) {c x : Nat}
    {d e : DObj} (hd : m.objs[c]? = some d) (hdd : d.data ≠ none) (he : m.objs[x]? = some e)
    {i j i' j' : Nat} (hi' : i' < d.rows) (hj' : j' < d.cols) (hi : i < e.rows) (hj : j < e.cols)
    (ha : d.access m.heap i' j' = e.access m.heap i j) :
    Mem.read ⟨h', m.objs⟩ x i j = Mem.read ⟨h', m.objs⟩ c i' j' := by
  rw [Mem.read_eq (m := ⟨h', m.objs⟩) hd, Mem.read_eq (m := ⟨h', m.objs⟩) he]
  have hok := hm.inv.ok hd hdd
  obtain ⟨b, hb, hl, hacc⟩ := hok.access hi' hj'
  rw [hacc] at ha
  obtain ⟨-, -, b', hb', hl', hp⟩ := DObj.access_eq_ok.1 ha.symm
  have hee : e.data ≠ none := by rw [hb']; exact (nomatch ·)
  obtain ⟨b1, hb1, rd1⟩ := (r2.inv.ok (m := ⟨h', m.objs⟩) hd hdd).read hi' hj'
  obtain ⟨b2, hb2, rd2⟩ := (r2.inv.ok (m := ⟨h', m.objs⟩) he hee).read hi hj
  obtain rfl : b = b1 := Option.some.inj (hb.symm.trans hb1)
  obtain rfl : b' = b2 := Option.some.inj (hb'.symm.trans hb2)
  injection hp with hp1 hp2
  rw [rd2, ← hp1, ← hp2, ← rd1]

/-- C69: `gemm(A, B, C, alpha, beta, TransA, TransB)` with structured `A`, `B` and a `Dense` target
that may be part of a larger matrix.  The product is computed through views of views of `C`; it
leaves in `C` exactly the result of the product on values, changes no other stored element, and
fails exactly if the product on values fails. -/
theorem C69_gemm (o : LrOps R) (fuel : Nat) {m : Mem R} (hm : Reach m) {c : Nat} {d : DObj}
    (hd : m.objs[c]? = some d) (hdd : d.data ≠ none) {C : Dense R} (hC : m.Shows c C) {A B : Mat R}
    (hA : A.WF) (hB : B.WF) (α β : R) (ta tb : Bool) :
    (∀ C', Mat.gemm o fuel A B (.dense C) α β ta tb = .ok C' → ∃ D h', C' = .dense D ∧
      Tgt.gemm o fuel A B (.dense d) α β ta tb m.heap = .ok h' ∧
      Reach ⟨h', m.objs⟩ ∧ Mem.Shows ⟨h', m.objs⟩ c D ∧
      ∀ x e i j, m.objs[x]? = some e → i < e.rows → j < e.cols →
        (∀ i' < d.rows, ∀ j' < d.cols, d.access m.heap i' j' ≠ e.access m.heap i j) →
        Mem.read ⟨h', m.objs⟩ x i j = m.read x i j) ∧
    ∀ err, Mat.gemm o fuel A B (.dense C) α β ta tb = .error err ↔
      Tgt.gemm o fuel A B (.dense d) α β ta tb m.heap = .error err := by
  obtain ⟨h1, h2⟩ := hC.holds hm hd hdd
  have := Tgt.gemm_sim o fuel A B (.dense d) (.dense C) α β ta tb m.heap hA hB h1 h2
  rcases this with ⟨C1, h', e1, e2, e3, e4⟩ | ⟨err, e1, e2⟩
  · refine ⟨fun C' hC' => ?_, fun err => by rw [e1, e2]; exact ⟨(nomatch ·), (nomatch ·)⟩⟩
    rw [e1] at hC'
    obtain rfl := Except.ok.inj hC'
    cases C1 with
    | dense D =>
      refine ⟨D, h', rfl, e2, ?_, Mem.shows_of_holds hm hd hdd e4 e3, ?_⟩
      · refine hm.same [c] (fun o ho => ?_) (e4.mono (fun b k hk => ⟨c, by simp, d, hd, hk⟩))
        obtain rfl : o = c := by simpa using ho
        exact ⟨d, hd, hdd⟩
      · intro x e i j he hi hj hne
        exact Mem.read_of_same hm hd hdd e4 he hi hj hne
    | lowRank => exact e3.elim
    | hier => exact e3.elim
    | empty => exact e3.elim
  · refine ⟨fun C' hC' => ?_, fun err' => ?_⟩
    · rw [e1] at hC'; cases hC'
    · rw [e1, e2]
      exact ⟨fun h => congrArg _ (Except.error.inj h), fun h => congrArg _ (Except.error.inj h)⟩

/-- C69 in entries: what every matrix in memory shows after the product returned.  An element of
`C`, seen through any matrix that shares it (`C` itself, a matrix that contains it, a part of it),
is `alpha * op(A) * op(B) + beta * C`; every other element is as before. -/
theorem C69_entries {o : LrOps R} (hf : o.Fits False) (fuel : Nat) {m : Mem R} (hm : Reach m) {c : Nat}
    {d : DObj} (hd : m.objs[c]? = some d) (hdd : d.data ≠ none) {C : Dense R} (hC : m.Shows c C)
    {A B : Mat R} (hA : A.WF) (hB : B.WF) {α β : R} {ta tb : Bool} (ht : Mat.TransSafe ta tb A B)
    {h' : Heap R} (hr : Tgt.gemm o fuel A B (.dense d) α β ta tb m.heap = .ok h')
    {x : Nat} {e : DObj} {i j : Nat} (he : m.objs[x]? = some e) (hi : i < e.rows) (hj : j < e.cols) :
    (∀ i' < d.rows, ∀ j' < d.cols, d.access m.heap i' j' = e.access m.heap i j →
      Mem.read ⟨h', m.objs⟩ x i j = .ok (α * ∑ l ∈ range (if ta then A.nRows else A.nCols),
        (if ta then A.entry l i' else A.entry i' l) * (if tb then B.entry j' l else B.entry l j') +
        β * C.val i' j')) ∧
    ((∀ i' < d.rows, ∀ j' < d.cols, d.access m.heap i' j' ≠ e.access m.heap i j) →
      Mem.read ⟨h', m.objs⟩ x i j = m.read x i j) := by
  obtain ⟨q1, q2⟩ := C69_gemm o fuel hm hd hdd hC hA hB α β ta tb
  cases hv : Mat.gemm o fuel A B (.dense C) α β ta tb with
  | error err => rw [(q2 err).1 hv] at hr; cases hr
  | ok C' =>
    obtain ⟨D, h1, rfl, r1, r2, r3, r4⟩ := q1 C' hv
    obtain rfl := Except.ok.inj (r1.symm.trans hr)
    refine ⟨fun i' hi' j' hj' ha => ?_, fun hne => r4 x e i j he hi hj hne⟩
    have P := (Mat.gemmBoth_ok hf fuel).1 A B (.dense C) α β ta tb (.dense D) hA hB trivial trivial ht
      (fun h => h.elim) hv
    obtain ⟨⟨d', hd', c1, c2⟩, c3⟩ := id hC
    obtain rfl := Option.some.inj (hd.symm.trans hd')
    have P2 := P.2.ent i' (by show _ < C.rows; omega) j' (by show _ < C.cols; omega) (Or.inl trivial)
    obtain ⟨⟨d'', hd'', f1, f2⟩, f3⟩ := r3
    obtain rfl := Option.some.inj (hd.symm.trans hd'')
    have rd := f3 i' (by omega) j' (by omega)
    rw [Mem.read_alias hm r2 hd hdd he hi' hj' hi hj ha, rd]
    exact congrArg Except.ok P2

omit [DecidableEq R] in
/-- C69: converting a structured matrix into a `Dense` one that may be part of a larger matrix.  It
returns, every matrix sharing an element with the target sees the entry of the structured matrix
there, and every other element is as before. -/
theorem C69_fill {m : Mem R} (hm : Reach m) {c : Nat} {d : DObj} (hd : m.objs[c]? = some d)
    (hdd : d.data ≠ none) {A : Mat R} (hA : A.WF) (h0 : d.rows = A.nRows) (h1 : d.cols = A.nCols) :
    ∃ h', Tgt.fillFrom A d m.heap = .ok h' ∧ Reach ⟨h', m.objs⟩ ∧
      ∀ x e i j, m.objs[x]? = some e → i < e.rows → j < e.cols →
        (∀ i' < d.rows, ∀ j' < d.cols, d.access m.heap i' j' = e.access m.heap i j →
          Mem.read ⟨h', m.objs⟩ x i j = .ok (A.entry i' j')) ∧
        ((∀ i' < d.rows, ∀ j' < d.cols, d.access m.heap i' j' ≠ e.access m.heap i j) →
          Mem.read ⟨h', m.objs⟩ x i j = m.read x i j) := by
  have hok := hm.inv.ok hd hdd
  obtain ⟨D, v1, v2, v3, v4⟩ := Mat.fillDenseFrom_ok A hA
    ⟨d.rows, d.cols, fun i j => m.heap.cell (d.data.getD 0) (d.loc i j)⟩ h0 h1
  have := Tgt.sim_fill A hA hok (c := ⟨d.rows, d.cols, fun i j => m.heap.cell (d.data.getD 0) (d.loc i j)⟩)
    ⟨rfl, rfl, fun i _ j _ => rfl⟩
  rcases this with ⟨C1, h', e1, e2, e3, e4⟩ | ⟨err, e1, e2⟩
  · rw [v1] at e1
    obtain rfl := Except.ok.inj e1
    have r2 : Reach ⟨h', m.objs⟩ := by
      refine hm.same [c] (fun o ho => ?_) (e4.mono (fun b k hk => ⟨c, by simp, d, hd, hk⟩))
      obtain rfl : o = c := by simpa using ho
      exact ⟨d, hd, hdd⟩
    have r3 := Mem.shows_of_holds hm hd hdd e4 e3
    refine ⟨h', e2, r2, fun x e i j he hi hj => ⟨fun i' hi' j' hj' ha => ?_,
      fun hne => Mem.read_of_same hm hd hdd e4 he hi hj hne⟩⟩
    have rd := r3.2 i' (by rw [v2]; exact hi') j' (by rw [v3]; exact hj')
    rw [Mem.read_alias hm r2 hd hdd he hi' hj' hi hj ha, rd, v4 i' hi' j' hj']
  · rw [v1] at e1; cases e1

/-! ### examples -/

/-- A 2-by-2 matrix of 1-by-1 blocks: low-rank on the diagonal (1 and 2), dense elsewhere (3). -/
def tileA : Mat ℚ := .hier 2 2 (fun i j => if i = j then
  .lowRank ⟨1, 1, 1, 0, ⟨1, 1, fun _ _ => i + 1⟩, ⟨1, 1, fun _ _ => 1⟩, ⟨1, 1, fun _ _ => 1⟩⟩
  else .dense ⟨1, 1, fun _ _ => 3⟩)

theorem tileA_wf : tileA.WF := by
  refine ⟨by omega, by omega, fun i hi j hj => ?_⟩
  interval_cases i <;> interval_cases j <;>
    first
    | exact ⟨⟨rfl, rfl, rfl, rfl, rfl⟩, rfl, rfl⟩
    | exact ⟨trivial, rfl, rfl⟩

theorem tilesMem_left : tilesMem.Shows 1 ⟨2, 2, fun i j => if i = 0 then (if j = 0 then 1 else 2)
    else if j = 0 then 3 else 4⟩ :=
  ⟨⟨_, rfl, rfl, rfl⟩, fun i (hi : i < 2) j (hj : j < 2) => by interval_cases i <;> interval_cases j <;> rfl⟩

/-- The square of such a matrix plus twice the left half of a 2-by-4 matrix, into that half: its
element `(1,0)` is then `3·1 + 2·3 + 2·3`, also in the whole matrix (0), and the right half of the
matrix still has the element 0. -/
example : ∃ h', Tgt.gemm (exactOps ℚ) 9 tileA tileA (.dense ⟨2, 2, 4, some 0, 0, 0, 0⟩) 1 2 false false
      tilesMem.heap = .ok h' ∧
    Mem.read ⟨h', tilesMem.objs⟩ 1 1 0 = .ok 15 ∧ Mem.read ⟨h', tilesMem.objs⟩ 0 1 0 = .ok 15 ∧
    Mem.read ⟨h', tilesMem.objs⟩ 0 1 2 = .ok 0 := by
  obtain ⟨h', hr, -⟩ := okAnd_spec (x := Tgt.gemm (exactOps ℚ) 9 tileA tileA
    (.dense ⟨2, 2, 4, some 0, 0, 0, 0⟩) 1 2 false false tilesMem.heap) (P := fun _ => true) (by decide +kernel)
  have E := fun {x e i j} => C69_entries (x := x) (e := e) (i := i) (j := j) exactOps_fits 9 tilesMem_reach
    (c := 1) rfl (by decide) tilesMem_left tileA_wf tileA_wf (Mat.TransSafe_ff _ _) hr
  refine ⟨h', hr, ?_, ?_, ?_⟩
  · rw [(E (x := 1) (i := 1) (j := 0) rfl (by decide) (by decide)).1 1 (by decide) 0 (by decide) rfl]
    decide +kernel
  · rw [(E (x := 0) (i := 1) (j := 0) rfl (by decide) (by decide)).1 1 (by decide) 0 (by decide) rfl]
    decide +kernel
  · rw [(E (x := 0) (i := 1) (j := 2) rfl (by decide) (by decide)).2 (by
      intro i' (hi : i' < 2) j' (hj : j' < 2)
      interval_cases i' <;> interval_cases j' <;> simp [DObj.access, DObj.elem, assertM, tilesMem])]
    rfl

/-- The same structured matrix written into the right half of the 2-by-4 matrix. -/
example : ∃ h', Tgt.fillFrom tileA ⟨2, 2, 4, some 0, 0, 2, 2⟩ tilesMem.heap = .ok h' ∧
    Mem.read ⟨h', tilesMem.objs⟩ 0 1 3 = .ok 2 ∧ Mem.read ⟨h', tilesMem.objs⟩ 0 1 1 = .ok 4 := by
  obtain ⟨h', hr, -, E⟩ := C69_fill tilesMem_reach (c := 2) rfl (by decide) tileA_wf rfl rfl
  refine ⟨h', hr, ?_, ?_⟩
  · rw [(E 0 _ 1 3 rfl (by decide) (by decide)).1 1 (by decide) 1 (by decide) rfl]
    decide +kernel
  · rw [(E 0 _ 1 1 rfl (by decide) (by decide)).2 (by
      intro i' (hi : i' < 2) j' (hj : j' < 2)
      interval_cases i' <;> interval_cases j' <;> simp [DObj.access, DObj.elem, assertM, tilesMem])]
    rfl

end Verif
