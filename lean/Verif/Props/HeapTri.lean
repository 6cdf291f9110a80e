import Verif.Lemmas.HeapTri
import Verif.Props.HeapGemm
import Verif.Props.TriTotal
import Verif.Props.Same

/-
C74: triangular solves and products that overwrite part of a larger matrix.
-/

namespace Verif
open Finset

variable {R : Type}

/-- What a routine on a stored `Dense` does, given what it does on values. -/
theorem Mem.of_sim [Field R] {m : Mem R} (hm : Reach m) {c : Nat} {d : DObj} (hd : m.objs[c]? = some d)
    (hdd : d.data ≠ none) {x : Except Err (Mat R)} {y : Except Err (Heap R)}
    (hs : Tgt.Sim (.dense d) m.heap x y) :
    (∀ C', x = .ok C' → ∃ D h', C' = .dense D ∧ y = .ok h' ∧
      Reach ⟨h', m.objs⟩ ∧ Mem.Shows ⟨h', m.objs⟩ c D ∧
      ∀ x e i j, m.objs[x]? = some e → i < e.rows → j < e.cols →
        (∀ i' < d.rows, ∀ j' < d.cols, d.access m.heap i' j' ≠ e.access m.heap i j) →
        Mem.read ⟨h', m.objs⟩ x i j = m.read x i j) ∧
    ∀ err, x = .error err ↔ y = .error err := by
  rcases hs with ⟨C1, h', e1, e2, e3, e4⟩ | ⟨err, e1, e2⟩
  · refine ⟨fun C' hC' => ?_, fun err => by rw [e1, e2]; exact ⟨(nomatch ·), (nomatch ·)⟩⟩
    rw [e1] at hC'
    obtain rfl := Except.ok.inj hC'
    cases C1 with
    | dense D =>
      refine ⟨D, h', rfl, e2, ?_, Mem.shows_of_holds hm hd hdd e4 e3, ?_⟩
      · refine hm.same [c] (fun o ho => ?_) (e4.mono (fun b k hk => ⟨c, by simp, d, hd, hk⟩))
        obtain rfl : o = c := by simpa using ho
        exact ⟨d, hd, hdd⟩
      · intro x e i j he hi hj hne
        exact Mem.read_of_same hm hd hdd e4 he hi hj hne
    | lowRank => exact e3.elim
    | hier => exact e3.elim
    | empty => exact e3.elim
  · refine ⟨fun C' hC' => ?_, fun err' => ?_⟩
    · rw [e1] at hC'; cases hC'
    · rw [e1, e2]
      exact ⟨fun h => congrArg _ (Except.error.inj h), fun h => congrArg _ (Except.error.inj h)⟩

/-- **C74**: `trsm(A, B, uplo, side)` with a structured triangle `A` and a `Dense` right-hand side `B`
that may be part of a larger matrix.  The solve works in place on views of views of `B`; it leaves in
`B` exactly the result of the solve on values, changes no other stored element, and fails exactly if
the solve on values fails. -/
theorem C74_trsm [Field R] [DecidableEq R] {o : LrOps R} (ho : o.Local) (fuel : Nat) {m : Mem R}
    (hm : Reach m) {c : Nat} {d : DObj} (hd : m.objs[c]? = some d) (hdd : d.data ≠ none) {B : Dense R}
    (hB : m.Shows c B) {A : Mat R} (hA : A.WF) (uplo : Uplo) (side : Side) :
    (∀ X, Mat.trsm o fuel A (.dense B) uplo side = .ok X → ∃ D h', X = .dense D ∧
      Tgt.trsm o fuel A (.dense d) uplo side m.heap = .ok h' ∧
      Reach ⟨h', m.objs⟩ ∧ Mem.Shows ⟨h', m.objs⟩ c D ∧
      ∀ x e i j, m.objs[x]? = some e → i < e.rows → j < e.cols →
        (∀ i' < d.rows, ∀ j' < d.cols, d.access m.heap i' j' ≠ e.access m.heap i j) →
        Mem.read ⟨h', m.objs⟩ x i j = m.read x i j) ∧
    ∀ err, Mat.trsm o fuel A (.dense B) uplo side = .error err ↔
      Tgt.trsm o fuel A (.dense d) uplo side m.heap = .error err := by
  obtain ⟨h1, h2⟩ := hB.holds hm hd hdd
  exact Mem.of_sim hm hd hdd (Tgt.sim_trsmWith (Mat.gemmBoth_alike ho fuel).1 (Tgt.gemm_sim o fuel) uplo
    side fuel A (.dense d) (.dense B) m.heap hA h1 h2 trivial)

/-- **C74**: `trmm(A, B, side, uplo, trans, diag, alpha)` in the same way. -/
theorem C74_trmm [Field R] [DecidableEq R] {o : LrOps R} (ho : o.Local) (fuel : Nat) {m : Mem R}
    (hm : Reach m) {c : Nat} {d : DObj} (hd : m.objs[c]? = some d) (hdd : d.data ≠ none) {B : Dense R}
    (hB : m.Shows c B) {A : Mat R} (hA : A.WF) (side : Side) (uplo : Uplo) (tr unit : Bool) (α : R) :
    (∀ X, Mat.trmm o fuel A (.dense B) side uplo tr unit α = .ok X → ∃ D h', X = .dense D ∧
      Tgt.trmm o fuel A (.dense d) side uplo tr unit α m.heap = .ok h' ∧
      Reach ⟨h', m.objs⟩ ∧ Mem.Shows ⟨h', m.objs⟩ c D ∧
      ∀ x e i j, m.objs[x]? = some e → i < e.rows → j < e.cols →
        (∀ i' < d.rows, ∀ j' < d.cols, d.access m.heap i' j' ≠ e.access m.heap i j) →
        Mem.read ⟨h', m.objs⟩ x i j = m.read x i j) ∧
    ∀ err, Mat.trmm o fuel A (.dense B) side uplo tr unit α = .error err ↔
      Tgt.trmm o fuel A (.dense d) side uplo tr unit α m.heap = .error err := by
  obtain ⟨h1, h2⟩ := hB.holds hm hd hdd
  exact Mem.of_sim hm hd hdd (Tgt.sim_trmmWith (Mat.gemmBoth_alike ho fuel).1 (Tgt.gemm_sim o fuel) side
    uplo tr unit α fuel A (.dense d) (.dense B) m.heap hA h1 h2 trivial)

/-- **C74** in entries: if the solve returned, `B` shows a solution `X` of `tri(A) * X = B`
(`X * tri(A) = B`) for its former entries; every matrix that shares an element with `B` sees the
element of `X` there, and every other element is as before.  Lower triangles have a unit diagonal. -/
theorem C74_trsm_entries [Field R] [DecidableEq R] {o : LrOps R} (hf : o.Fits False) (ho : o.Local)
    (fuel : Nat) {m : Mem R} (hm : Reach m) {c : Nat} {d : DObj} (hd : m.objs[c]? = some d)
    (hdd : d.data ≠ none) {B : Dense R} (hB : m.Shows c B) {A : Mat R} (hA : A.WF) (hD : A.DiagSquare)
    {uplo : Uplo} {side : Side}
    (hn : A.nRows = side.pick B.rows B.cols) {h' : Heap R}
    (hr : Tgt.trsm o fuel A (.dense d) uplo side m.heap = .ok h') :
    ∃ X : Dense R, X.rows = B.rows ∧ X.cols = B.cols ∧
      (∀ i < B.rows, ∀ j < B.cols,
        Mat.sideProd side A.nRows (A.triEntry uplo (decide (uplo = .lower))) (.dense X) i j = B.val i j) ∧
      ∀ x e i j, m.objs[x]? = some e → i < e.rows → j < e.cols →
        (∀ i' < d.rows, ∀ j' < d.cols, d.access m.heap i' j' = e.access m.heap i j →
          Mem.read ⟨h', m.objs⟩ x i j = .ok (X.val i' j')) ∧
        ((∀ i' < d.rows, ∀ j' < d.cols, d.access m.heap i' j' ≠ e.access m.heap i j) →
          Mem.read ⟨h', m.objs⟩ x i j = m.read x i j) := by
  obtain ⟨q1, q2⟩ := C74_trsm ho fuel hm hd hdd hB hA uplo side
  cases hv : Mat.trsm o fuel A (.dense B) uplo side with
  | error err => rw [(q2 err).1 hv] at hr; cases hr
  | ok Y =>
    obtain ⟨X, h1, rfl, r1, r2, r3, r4⟩ := q1 Y hv
    obtain rfl := Except.ok.inj (r1.symm.trans hr)
    obtain ⟨-, -, -, p1, p2, p3⟩ := C29_trsm (B := .dense B) hf fuel hA trivial trivial hD (Mat.TriFits_dense _ _ _) hn hv
    obtain ⟨⟨d'', hd'', f1, f2⟩, f3⟩ := id r3
    obtain rfl := Option.some.inj (hd.symm.trans hd'')
    refine ⟨X, p1, p2, fun i hi j hj => p3 i hi j hj (Or.inl trivial), fun x e i j he hi hj =>
      ⟨fun i' hi' j' hj' ha => ?_, fun hne => r4 x e i j he hi hj hne⟩⟩
    rw [Mem.read_alias hm r2 hd hdd he hi' hj' hi hj ha]
    exact f3 i' (by omega) j' (by omega)

/-- **C74** in entries for the product: every matrix that shares an element with `B` sees
`alpha * op(tri(A)) * B` (`alpha * B * op(tri(A))`) there, and every other element is as before. -/
theorem C74_trmm_entries [Field R] [DecidableEq R] {o : LrOps R} (hf : o.Fits False) (ho : o.Local)
    (fuel : Nat) {m : Mem R} (hm : Reach m) {c : Nat} {d : DObj} (hd : m.objs[c]? = some d)
    (hdd : d.data ≠ none) {B : Dense R} (hB : m.Shows c B) {A : Mat R} (hA : A.WF) (hD : A.DiagSquare)
    {side : Side} {uplo : Uplo} {tr unit : Bool} {α : R} {h' : Heap R}
    (hr : Tgt.trmm o fuel A (.dense d) side uplo tr unit α m.heap = .ok h')
    {x : Nat} {e : DObj} {i j : Nat} (he : m.objs[x]? = some e) (hi : i < e.rows) (hj : j < e.cols) :
    (∀ i' < d.rows, ∀ j' < d.cols, d.access m.heap i' j' = e.access m.heap i j →
      Mem.read ⟨h', m.objs⟩ x i j = .ok (α * Mat.sideProd side A.nRows
        (fun k l => if tr then A.triEntry uplo unit l k else A.triEntry uplo unit k l) (.dense B) i' j')) ∧
    ((∀ i' < d.rows, ∀ j' < d.cols, d.access m.heap i' j' ≠ e.access m.heap i j) →
      Mem.read ⟨h', m.objs⟩ x i j = m.read x i j) := by
  obtain ⟨q1, q2⟩ := C74_trmm ho fuel hm hd hdd hB hA side uplo tr unit α
  cases hv : Mat.trmm o fuel A (.dense B) side uplo tr unit α with
  | error err => rw [(q2 err).1 hv] at hr; cases hr
  | ok Y =>
    obtain ⟨X, h1, rfl, r1, r2, r3, r4⟩ := q1 Y hv
    obtain rfl := Except.ok.inj (r1.symm.trans hr)
    obtain ⟨-, -, -, -, hsh, p3⟩ := C28_trmm (B := .dense B) hf fuel hA trivial trivial hD hv
    obtain ⟨⟨d', hd', c1, c2⟩, c3⟩ := id hB
    obtain rfl := Option.some.inj (hd.symm.trans hd')
    obtain ⟨⟨d'', hd'', f1, f2⟩, f3⟩ := id r3
    obtain rfl := Option.some.inj (hd.symm.trans hd'')
    refine ⟨fun i' hi' j' hj' ha => ?_, fun hne => r4 x e i j he hi hj hne⟩
    have P := p3 i' (by show _ < B.rows; omega) j' (by show _ < B.cols; omega) (Or.inl trivial)
    rw [Mem.read_alias hm r2 hd hdd he hi' hj' hi hj ha, f3 i' (by omega) j' (by omega)]
    exact congrArg Except.ok ((Mat.entryIs_iff (.dense X) trivial i' j' _).1 P).2.2.symm

/-- **C74**: the solve returns if the triangle has `b`-by-`b` subdivisions and a nonzero diagonal (its
structure allowing the case of the solve), whatever the external routines do. -/
theorem C74_trsm_returns [Field R] [DecidableEq R] {L : Lapack R} (hL : L.Local) (mode : LraMode)
    (lfuel : Nat) {m : Mem R} (hm : Reach m) {c : Nat} {d : DObj} (hd : m.objs[c]? = some d)
    (hdd : d.data ≠ none) {B : Dense R} (hB : m.Shows c B) {b : Nat} (hb : 2 ≤ b) {A : Mat R}
    {side : Side} {uplo : Uplo} (hA : A.TriRegular b uplo) (hz : A.DiagNonzero uplo)
    (hS : Mat.Solvable b uplo side A (.dense B)) (hn : A.nRows = side.pick B.rows B.cols) {fuel : Nat}
    (hfuel : 6 * max A.depth (Mat.dense B).depth + 2 ≤ fuel) :
    ∃ h', Tgt.trsm (L.ops mode lfuel) fuel A (.dense d) uplo side m.heap = .ok h' := by
  obtain ⟨X, hX, -⟩ := C29_trsm_library_returns L mode lfuel hb hA hz (B := .dense B) trivial trivial trivial hS
    hn hfuel
  obtain ⟨D, h', -, h1, -⟩ := (C74_trsm (hL.ops mode lfuel) fuel hm hd hdd hB hA.wf uplo side).1 X hX
  exact ⟨h', h1⟩

/-- **C74**: the product returns if the triangle has `b`-by-`b` subdivisions, whatever the external
routines do.  A transposed triangle must be dense. -/
theorem C74_trmm_returns [Field R] [DecidableEq R] {L : Lapack R} (hL : L.Local) (mode : LraMode)
    (lfuel : Nat) {m : Mem R} (hm : Reach m) {c : Nat} {d : DObj} (hd : m.objs[c]? = some d)
    (hdd : d.data ≠ none) {B : Dense R} (hB : m.Shows c B) {b : Nat} (hb : 2 ≤ b) {A : Mat R}
    {side : Side} {uplo : Uplo} {tr unit : Bool} {α : R} (hA : A.TriRegular b uplo)
    (hn : A.nRows = side.pick B.rows B.cols) (ht : tr = true → ∃ a, A = .dense a) {fuel : Nat}
    (hfuel : 6 * max A.depth (Mat.dense B).depth + 1 ≤ fuel) :
    ∃ h', Tgt.trmm (L.ops mode lfuel) fuel A (.dense d) side uplo tr unit α m.heap = .ok h' := by
  obtain ⟨X, hX, -⟩ := C28_trmm_library_returns (B := .dense B) L mode lfuel hb hA ⟨trivial, trivial, trivial⟩ trivial
    hn (fun h => ⟨ht h, trivial⟩) (α := α) (unit := unit) hfuel
  obtain ⟨D, h', -, h1, -⟩ := (C74_trmm (hL.ops mode lfuel) fuel hm hd hdd hB hA.wf side uplo tr unit α).1 X hX
  exact ⟨h', h1⟩

/-! ### examples -/

theorem noOps_fits [CommRing R] : (Lapack.noOps R).Fits False where
  add _ _ _ _ _ _ _ _ _ h := nomatch h
  ofRank _ _ _ h := nomatch h
  ofEps _ _ _ h := nomatch h
  ofHier _ _ _ _ h := nomatch h

/-- A 2-by-2 matrix of 1-by-1 blocks: dense on the diagonal (1 and 2), low-rank elsewhere (3). -/
def tileT : Mat ℚ := .hier 2 2 (fun i j => if i = j then .dense ⟨1, 1, fun _ _ => i + 1⟩ else
  .lowRank ⟨1, 1, 1, 0, ⟨1, 1, fun _ _ => 3⟩, ⟨1, 1, fun _ _ => 1⟩, ⟨1, 1, fun _ _ => 1⟩⟩)

theorem tileT_wf : tileT.WF := by
  refine ⟨by omega, by omega, fun i hi j hj => ?_⟩
  interval_cases i <;> interval_cases j <;>
    first
    | exact ⟨⟨rfl, rfl, rfl, rfl, rfl⟩, rfl, rfl⟩
    | exact ⟨trivial, rfl, rfl⟩

theorem tileT_diag : tileT.DiagSquare := by
  refine ⟨rfl, fun i hi => ?_⟩
  interval_cases i <;> exact rfl

/-- The upper triangle `[1 3; 0 2]` times the left half `[1 2; 3 4]` of a 2-by-4 matrix, in place: the
element `(0,1)` of the half is then `2 + 3·4`, also in the whole matrix (0), whose right half still has
the element 0. -/
example : ∃ h', Tgt.trmm (Lapack.noOps ℚ) 9 tileT (.dense ⟨2, 2, 4, some 0, 0, 0, 0⟩) .left .upper false false 1
      tilesMem.heap = .ok h' ∧
    Mem.read ⟨h', tilesMem.objs⟩ 1 0 1 = .ok 14 ∧ Mem.read ⟨h', tilesMem.objs⟩ 0 0 1 = .ok 14 ∧
    Mem.read ⟨h', tilesMem.objs⟩ 0 1 2 = .ok 0 := by
  obtain ⟨h', hr, -⟩ := okAnd_spec (x := Tgt.trmm (Lapack.noOps ℚ) 9 tileT (.dense ⟨2, 2, 4, some 0, 0, 0, 0⟩)
    .left .upper false false 1 tilesMem.heap) (P := fun _ => true) (by decide +kernel)
  have E := fun {x e i j} => C74_trmm_entries (x := x) (e := e) (i := i) (j := j) noOps_fits noOps_local 9
    tilesMem_reach (c := 1) rfl (by decide) tilesMem_left tileT_wf tileT_diag hr
  refine ⟨h', hr, ?_, ?_, ?_⟩
  · rw [(E (x := 1) (i := 0) (j := 1) rfl (by decide) (by decide)).1 0 (by decide) 1 (by decide) rfl]
    decide +kernel
  · rw [(E (x := 0) (i := 0) (j := 1) rfl (by decide) (by decide)).1 0 (by decide) 1 (by decide) rfl]
    decide +kernel
  · rw [(E (x := 0) (i := 1) (j := 2) rfl (by decide) (by decide)).2 (by
      intro i' (hi : i' < 2) j' (hj : j' < 2)
      interval_cases i' <;> interval_cases j' <;> simp [DObj.access, DObj.elem, assertM, tilesMem])]
    rfl

/-- The solve with the same triangle in the same place: the hypotheses hold and the second row of the
solution is `[3/2 2]`. -/
example : ∃ h' X, Tgt.trsm (Lapack.noOps ℚ) 9 tileT (.dense ⟨2, 2, 4, some 0, 0, 0, 0⟩) .upper .left
      tilesMem.heap = .ok h' ∧
    Mem.read ⟨h', tilesMem.objs⟩ 0 1 0 = .ok X ∧ 2 * X = 3 := by
  obtain ⟨h', hr, -⟩ := okAnd_spec (x := Tgt.trsm (Lapack.noOps ℚ) 9 tileT (.dense ⟨2, 2, 4, some 0, 0, 0, 0⟩)
    .upper .left tilesMem.heap) (P := fun _ => true) (by decide +kernel)
  obtain ⟨X, h0, h1, h2, h3⟩ := C74_trsm_entries noOps_fits noOps_local 9
    tilesMem_reach (c := 1) rfl (by decide) tilesMem_left tileT_wf tileT_diag rfl hr
  refine ⟨h', X.val 1 0, hr, (h3 0 _ 1 0 rfl (by decide) (by decide)).1 1 (by decide) 0 (by decide) rfl, ?_⟩
  have := h2 1 (by decide) 0 (by decide)
  have e0 : tileT.triEntry .upper false 1 0 = 0 := by decide +kernel
  have e1 : tileT.triEntry .upper false 1 1 = 2 := by decide +kernel
  have e2 : tileT.nRows = 2 := by decide +kernel
  rw [e2] at this
  simpa [Mat.sideProd, Finset.sum_range_succ, e0, e1, Mat.entry] using this

end Verif
