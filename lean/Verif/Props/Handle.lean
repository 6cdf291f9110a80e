import Verif.Lemmas.Handle

/-
Matrix handles have value semantics (C47).
-/

namespace Verif

variable {R : Type} [Zero R]

/-- C47: copying a handle whose matrix can be read gives a handle with the same
structure and entries, and leaves all readable handles as they are. -/
theorem C47_copy {h : Heap R} {A : HObj R} (hA : SameValue h h A A) :
    ∃ h' A', A.clone h = .ok (h', A') ∧ SameValue h h' A A' ∧
      ∀ B, SameValue h h B B → SameValue h h' B B := by
  obtain ⟨h', A', h1, h2, h3, -⟩ := HObj.clone_ok hA
  exact ⟨h', A', h1, h3, fun B hB => hB.grows h2⟩

/-- Writes keep the lengths of the buffers, copies only add buffers. -/
theorem HandleSteps.ext {As : List (HObj R)} {h h' : Heap R} (hs : HandleSteps As h h') :
    h.Ext h' := by
  induction hs with
  | refl => exact Heap.Ext.refl _
  | tail _ hst ih =>
    refine ih.trans ?_
    cases hst with
    | write _ _ hw =>
      obtain ⟨-, -, b, -, -, w1, w2, -⟩ := DObj.write_spec hw
      exact ext_of_sizes w1 w2
    | copy hc => exact (HObj.clone_grows hc).1

theorem SameValue.readable {h h' : Heap R} {A : HObj R} :
    ∀ {A' : HObj R}, SameValue h h' A A' → ∀ d, A.Has d → d.Readable h := by
  induction A with
  | null => intro A' hs; cases A' <;> simp [SameValue] at hs
  | dense d =>
    intro A' hs e he
    cases A' with
    | dense d' => cases he; exact (SameDense.readable hs).1
    | _ => simp [SameValue] at hs
  | lowRank m n r e U S V =>
    intro A' hs e he
    cases A' with
    | lowRank m' n' r' e' U' S' V' =>
      obtain ⟨-, -, -, -, h5, h6, h7⟩ := hs
      rcases he with rfl | rfl | rfl
      · exact h5.readable.1
      · exact h6.readable.1
      · exact h7.readable.1
    | _ => simp [SameValue] at hs
  | hier br bc blk ih =>
    intro A' hs e he
    cases A' with
    | hier br' bc' blk' =>
      obtain ⟨-, -, h3⟩ := hs
      obtain ⟨i, j, hi, hj, he⟩ := he
      exact ih i j (h3 i hi j hj) e he
    | _ => simp [SameValue] at hs
  | empty m n => intro A' hs e he; exact he.elim

omit [Zero R] in
/-- Entries of a readable object are in old buffers. -/
theorem readable_lt {h h1 : Heap R} {d : DObj} (hd : d.Readable h) {i j b : Nat}
    (hi : i < d.rows) (hj : j < d.cols) (hb : d.data = some b) (_h1 : h.Ext h1) : b < h.length := by
  obtain ⟨b', hb', hl⟩ := hd i hi j hj
  obtain rfl := Option.some.inj (hb.symm.trans hb')
  exact Heap.lt_of_size hl

/-- The value of a readable handle survives steps that leave its buffers alone. -/
theorem SameValue.steps {As : List (HObj R)} {h h' : Heap R} (hs : HandleSteps As h h') (B : HObj R)
    (hB : SameValue h h B B)
    (hsep : ∀ A ∈ As, ∀ d, A.Has d → 0 < d.rows → 0 < d.cols → ∀ e, B.Has e → 0 < e.rows →
      0 < e.cols → d.data ≠ e.data) : SameValue h h' B B := by
  induction hs with
  | refl => exact hB
  | tail hpre hst ih =>
    refine ih.trans ?_
    have hBB := ih.symm.trans ih
    cases hst with
    | write hA hd hw =>
      obtain ⟨hi, hj, b, hb, -, w1, w2, w3⟩ := DObj.write_spec hw
      refine SameValue.of_frame (ext_of_sizes w1 w2) hBB ?_
      intro e he b' hb' _ her hec k
      rw [w3, if_neg]
      rintro ⟨rfl, -⟩
      exact hsep _ hA _ hd (by omega) (by omega) e he her hec (hb.trans hb'.symm)
    | copy hc => exact hBB.grows (HObj.clone_grows hc)

/-- C47: whatever is later written through handles that existed before the copy, and
whatever is copied, the copy keeps its value. -/
theorem C47_copy_unaffected {h h' : Heap R} {A A' : HObj R} (hA : SameValue h h A A)
    (hc : A.clone h = .ok (h', A')) {As : List (HObj R)} (hAs : ∀ B ∈ As, SameValue h h B B)
    {h1 : Heap R} (hs : HandleSteps As h' h1) : SameValue h' h1 A' A' := by
  obtain ⟨h'', A'', c1, c2, c3, c4⟩ := HObj.clone_ok hA
  cases Except.ok.inj (hc.symm.trans c1)
  refine SameValue.steps hs A' (c3.symm.trans c3) ?_
  intro B hB d hd hr hcl e he her hec heq
  obtain ⟨b, b1, b2, -⟩ := c4 e he
  have := readable_lt ((hAs B hB).readable d hd) hr hcl (heq.trans b1) c2.1
  omega

/-- C47: whatever is later written through the copy, and whatever is copied, all
handles that existed before the copy keep their value. -/
theorem C47_source_unaffected {h h' : Heap R} {A A' : HObj R} (hA : SameValue h h A A)
    (hc : A.clone h = .ok (h', A')) {B : HObj R} (hB : SameValue h h B B)
    {h1 : Heap R} (hs : HandleSteps [A'] h' h1) : SameValue h h1 B B := by
  obtain ⟨h'', A'', c1, c2, c3, c4⟩ := HObj.clone_ok hA
  cases Except.ok.inj (hc.symm.trans c1)
  have hB' : SameValue h h' B B := hB.grows c2
  refine hB'.trans (SameValue.steps hs B (hB'.symm.trans hB') ?_)
  intro A0 hA0 d hd hr hcl e he her hec heq
  obtain rfl := List.mem_singleton.1 hA0
  obtain ⟨b, b1, b2, -⟩ := c4 d hd
  have := readable_lt (hB.readable e he) her hec (heq.symm.trans b1) c2.1
  omega

/-- C47: in any interleaving of writes through both and further copies, a write
through one is not visible in the other. -/
theorem C47_interleaved {h h' : Heap R} {A A' : HObj R} (hA : SameValue h h A A)
    (hc : A.clone h = .ok (h', A')) {h1 : Heap R} (hs : HandleSteps [A, A'] h' h1)
    {d : DObj} {i j : Nat} {v : R} {h2 : Heap R} (hw : d.write h1 i j v = .ok h2) :
    (A.Has d → SameValue h1 h2 A' A') ∧ (A'.Has d → SameValue h1 h2 A A) := by
  obtain ⟨h'', A'', c1, c2, c3, c4⟩ := HObj.clone_ok hA
  cases Except.ok.inj (hc.symm.trans c1)
  have ext := hs.ext
  -- both handles stay readable
  have hread : ∀ {B : HObj R} {g g' : Heap R}, SameValue g g B B → g.Ext g' → SameValue g' g' B B := by
    intro B
    induction B with
    | null => intro g g' hs; simp [SameValue] at hs
    | dense d =>
      intro g g' hs hx
      have hr := (SameDense.readable hs).1.ext hx
      refine ⟨rfl, rfl, fun i hi j hj => ?_⟩
      obtain ⟨b, -, -, hv⟩ := hr.read hi hj
      exact ⟨_, hv, hv⟩
    | lowRank m n r e U S V =>
      intro g g' hs hx
      obtain ⟨-, -, -, -, h5, h6, h7⟩ := hs
      have key : ∀ {d : DObj}, SameDense g g d d → SameDense g' g' d d := by
        intro d hs
        have hr := hs.readable.1.ext hx
        refine ⟨rfl, rfl, fun i hi j hj => ?_⟩
        obtain ⟨b, -, -, hv⟩ := hr.read hi hj
        exact ⟨_, hv, hv⟩
      exact ⟨rfl, rfl, rfl, rfl, key h5, key h6, key h7⟩
    | hier br bc blk ih =>
      intro g g' hs hx
      exact ⟨rfl, rfl, fun i hi j hj => ih i j (hs.2.2 i hi j hj) hx⟩
    | empty m n => intro g g' hs hx; exact ⟨rfl, rfl⟩
  have hA1 : SameValue h1 h1 A A := hread (hread hA c2.1) ext
  have hA'1 : SameValue h1 h1 A' A' := hread (c3.symm.trans c3) ext
  obtain ⟨hi, hj, b, hb, -, w1, w2, w3⟩ := DObj.write_spec hw
  constructor
  · intro hd
    refine SameValue.of_frame (ext_of_sizes w1 w2) hA'1 ?_
    intro e he b' hb' _ her hec k
    rw [w3, if_neg]
    rintro ⟨rfl, -⟩
    obtain ⟨b2, e1, e2, -⟩ := c4 e he
    obtain rfl := Option.some.inj (hb'.symm.trans e1)
    have := readable_lt (hA.readable d hd) hi hj hb c2.1
    omega
  · intro hd
    refine SameValue.of_frame (ext_of_sizes w1 w2) hA1 ?_
    intro e he b' hb' _ her hec k
    rw [w3, if_neg]
    rintro ⟨rfl, -⟩
    obtain ⟨b2, e1, e2, -⟩ := c4 d hd
    obtain rfl := Option.some.inj (hb.symm.trans e1)
    have := readable_lt (hA.readable e he) her hec hb' c2.1
    omega

omit [Zero R] in
/-- C47: moving a handle, or moving a matrix into a handle, transfers the matrix as it
is (without touching the heap); the matrix moved from owns no storage any more. -/
theorem C47_move (A : HObj R) : A.move.1 = A ∧ A.move.2 = .null ∧
    (A ≠ .null → ∃ rest, A.moveClone = .ok (A, rest) ∧ ∀ d, rest.Has d → d.data = none) := by
  refine ⟨rfl, rfl, fun hA => ?_⟩
  cases A with
  | null => exact absurd rfl hA
  | dense d => exact ⟨_, rfl, by rintro e rfl; rfl⟩
  | lowRank m n r e U S V => exact ⟨_, rfl, by rintro e (rfl | rfl | rfl) <;> rfl⟩
  | hier br bc blk => exact ⟨_, rfl, fun d hd => by obtain ⟨i, j, -, -, h⟩ := hd; exact h.elim⟩
  | empty m n => exact ⟨_, rfl, fun d hd => hd.elim⟩

omit [Zero R] in
/-- C47: extraction of a concrete class succeeds exactly if the handle holds it, and
then gives what the handle holds; for every other content the program aborts. -/
theorem C47_extract (A : HObj R) :
    (∀ d, A.toDense = .ok d ↔ A = .dense d) ∧
    (∀ B, A.toLowRank = .ok B ↔ A = B ∧ ∃ m n r e U S V, A = .lowRank m n r e U S V) ∧
    (∀ B, A.toHierarchical = .ok B ↔ A = B ∧ ∃ br bc blk, A = .hier br bc blk) ∧
    (A ≠ .null → (∀ d, A ≠ .dense d) → A.toDense = .error .abort) ∧
    (A ≠ .null → (∀ m n r e U S V, A ≠ .lowRank m n r e U S V) → A.toLowRank = .error .abort) ∧
    (A ≠ .null → (∀ br bc blk, A ≠ .hier br bc blk) → A.toHierarchical = .error .abort) := by
  cases A <;> simp [HObj.toDense, HObj.toLowRank, HObj.toHierarchical]

/-- C47: a hierarchical matrix with a block that was never assigned cannot be copied
(it is no readable matrix). -/
theorem C47_unassigned_block {h : Heap R} {br bc : Nat} {blk : Nat → Nat → HObj R}
    (hbr : 0 < br) (hbc : 0 < bc) (hn : blk 0 0 = .null) :
    (HObj.hier br bc blk).clone h = .error .assertFail := by
  have row : ∀ n, 0 < n → collectS n (fun j h => (blk 0 j).clone h) h = .error .assertFail := by
    intro n
    induction n with
    | zero => intro h; omega
    | succ n ih =>
      intro _
      rcases Nat.eq_zero_or_pos n with h0 | h0
      · subst h0; simp [collectS, hn, HObj.clone]
      · simp only [collectS, ih h0, except_bind_error]
  have rows : ∀ n, 0 < n → collectS n (fun i h => collectS bc (fun j h => (blk i j).clone h) h) h =
      .error .assertFail := by
    intro n
    induction n with
    | zero => intro h; omega
    | succ n ih =>
      intro _
      rcases Nat.eq_zero_or_pos n with h0 | h0
      · subst h0
        have e : collectS (0 + 1) (fun i h => collectS bc (fun j h => (blk i j).clone h) h) h =
          (collectS bc (fun j h => (blk 0 j).clone h) h >>= fun x => .ok (x.1, fun i => if i = 0 then x.2 else default)) := rfl
        rw [e, row bc hbc]; rfl
      · simp only [collectS, ih h0, except_bind_error]
  simp only [HObj.clone, rows br hbr, except_bind_error]

/-- C47: making a low-rank matrix from handles needs dense factors; otherwise the
program aborts. -/
theorem C47_low_rank_factors {h : Heap R} {m n : Nat} {eps : R} {U V : HObj R} {S : DObj}
    (hU : SameValue h h U U) (hnd : ∀ d, U ≠ .dense d) :
    lowRankOfHandles m n eps U S V h = .error .abort := by
  obtain ⟨h', A', h1, -, h3, -⟩ := HObj.clone_ok hU
  have : A'.toDense = .error .abort := by
    apply (C47_extract A').2.2.2.1
    · rintro rfl; cases U <;> simp [SameValue] at h3
    · rintro d rfl
      cases U with
      | dense d' => exact hnd d' rfl
      | _ => simp [SameValue] at h3
  simp only [lowRankOfHandles, h1, except_bind_ok, this, except_bind_error]

/-- C47: a low-rank matrix made from dense factors holds copies of them, in this
order; everything that existed keeps its value. -/
theorem C47_low_rank_of_dense {h : Heap R} {m n : Nat} {eps : R} {U S V : DObj}
    (hU : SameDense h h U U) (hS : SameDense h h S S) (hV : SameDense h h V V) :
    ∃ h' A, lowRankOfHandles m n eps (.dense U) S (.dense V) h = .ok (h', A) ∧
      SameValue h h' (.lowRank m n S.rows eps U S V) A ∧
      (∀ d, A.Has d → ∃ b, d.data = some b ∧ h.length ≤ b) ∧
      ∀ B, SameValue h h B B → SameValue h h' B B := by
  obtain ⟨h1, u, u1, u2, u3, u4⟩ := DObj.copyCtor_same hU
  obtain ⟨h2, s, s1, s2, s3, s4⟩ := DObj.copyCtor_same (hS.grows u2)
  obtain ⟨h3, v, v1, v2, v3, v4⟩ := DObj.copyCtor_same ((hV.grows u2).grows s2)
  refine ⟨h3, .lowRank m n S.rows eps u s v, ?_, ?_, ?_, fun B hB => ((hB.grows u2).grows s2).grows v2⟩
  · simp only [lowRankOfHandles, HObj.clone, HObj.toDense, u1, s1, v1, except_bind_ok]
  · exact ⟨rfl, rfl, rfl, rfl, (u3.grows s2).grows v2, s3.grows v2, v3⟩
  · rintro d (rfl | rfl | rfl)
    · exact ⟨_, u4, Nat.le_refl _⟩
    · exact ⟨_, s4, u2.1.1⟩
    · exact ⟨_, v4, Nat.le_trans u2.1.1 s2.1.1⟩

/-! ### a concrete handle -/

/-- A heap with a 2-by-2 buffer and a rank-one matrix. -/
def exHeap : Heap Int := [[1, 2, 3, 4], [5, 6], [7], [8, 9]]

/-- A hierarchical matrix with a dense block, a low-rank block, an empty block and
a nested hierarchical block that is a view of the dense one. -/
def exHandle : HObj Int := .hier 2 2 (fun i j =>
  if i = 0 ∧ j = 0 then .dense ⟨2, 2, 2, some 0, 0, 0, 0⟩
  else if i = 0 then .lowRank 2 2 1 0 ⟨2, 1, 1, some 1, 0, 0, 0⟩ ⟨1, 1, 1, some 2, 0, 0, 0⟩
    ⟨1, 2, 2, some 3, 0, 0, 0⟩
  else if j = 0 then .empty 2 2
  else .hier 1 1 (fun _ _ => .dense ⟨2, 1, 2, some 0, 0, 1, 1⟩))

theorem SameDense.of_readable {h : Heap Int} {d : DObj}
    (hd : ∀ i < d.rows, ∀ j < d.cols, ∃ v, d.read h i j = .ok v) : SameDense h h d d :=
  ⟨rfl, rfl, fun i hi j hj => by obtain ⟨v, hv⟩ := hd i hi j hj; exact ⟨v, hv, hv⟩⟩

theorem exHandle_readable : SameValue exHeap exHeap exHandle exHandle := by
  refine ⟨rfl, rfl, fun i hi j hj => ?_⟩
  have key : ∀ {d : DObj} (_ : ∀ i ∈ List.range d.rows, ∀ j ∈ List.range d.cols,
      okAnd (d.read exHeap i j) (fun _ => true) = true), SameDense exHeap exHeap d d := by
    intro d hd
    refine SameDense.of_readable fun i hi j hj => ?_
    obtain ⟨v, hv, -⟩ := okAnd_spec (hd i (List.mem_range.2 hi) j (List.mem_range.2 hj))
    exact ⟨v, hv⟩
  rcases i with _ | _ | i
  · rcases j with _ | _ | j
    · exact key (by decide)
    · exact ⟨rfl, rfl, rfl, rfl, key (by decide), key (by decide), key (by decide)⟩
    · omega
  · rcases j with _ | _ | j
    · exact ⟨rfl, rfl⟩
    · refine ⟨rfl, rfl, fun i _ j _ => ?_⟩
      exact key (d := ⟨2, 1, 2, some 0, 0, 1, 1⟩) (by decide)
    · omega
  · omega

/-- The copy of the example exists; writing the first entry of the dense block of the
source (which is shared with the nested view's buffer) leaves the copy as it is. -/
example : ∃ h' A', exHandle.clone exHeap = .ok (h', A') ∧ SameValue exHeap h' exHandle A' ∧
    ∀ h1, HandleSteps [exHandle] h' h1 → SameValue h' h1 A' A' := by
  obtain ⟨h', A', h1, h2, -⟩ := C47_copy exHandle_readable
  exact ⟨h', A', h1, h2, fun h1' hs => C47_copy_unaffected exHandle_readable h1
    (fun B hB => by obtain rfl := List.mem_singleton.1 hB; exact exHandle_readable) hs⟩

/-- A low-rank matrix made from a 2-by-1, a 1-by-1 and a 1-by-2 factor. -/
example : ∃ h' A, lowRankOfHandles 2 2 0 (.dense ⟨2, 1, 1, some 1, 0, 0, 0⟩) ⟨1, 1, 1, some 2, 0, 0, 0⟩
    (.dense ⟨1, 2, 2, some 3, 0, 0, 0⟩) exHeap = .ok (h', A) := by
  have key : ∀ {d : DObj} (_ : ∀ i ∈ List.range d.rows, ∀ j ∈ List.range d.cols,
      okAnd (d.read exHeap i j) (fun _ => true) = true), SameDense exHeap exHeap d d := by
    intro d hd
    refine SameDense.of_readable fun i hi j hj => ?_
    obtain ⟨v, hv, -⟩ := okAnd_spec (hd i (List.mem_range.2 hi) j (List.mem_range.2 hj))
    exact ⟨v, hv⟩
  obtain ⟨h', A, h1, -⟩ := C47_low_rank_of_dense (m := 2) (n := 2) (eps := (0 : Int))
    (key (d := ⟨2, 1, 1, some 1, 0, 0, 0⟩) (by decide))
    (key (d := ⟨1, 1, 1, some 2, 0, 0, 0⟩) (by decide))
    (key (d := ⟨1, 2, 2, some 3, 0, 0, 0⟩) (by decide))
  exact ⟨h', A, h1⟩

end Verif
