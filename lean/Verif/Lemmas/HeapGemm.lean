import Verif.Model.HeapGemm
import Verif.Spec.Same
import Verif.Lemmas.HeapOps
import Verif.Lemmas.FitOps
import Verif.Lemmas.DiffNorm

/-
Targets stored on the heap and the values they hold.
-/

namespace Verif
open Finset

variable {R : Type}

/-! ### two computations side by side -/

theorem Both.ok {α β : Type _} {P : α → β → Prop} {a : α} {b : β} (h : P a b) :
    Both P (.ok a) (.ok b) := Or.inl ⟨a, b, rfl, rfl, h⟩

theorem Both.err {α β : Type _} (P : α → β → Prop) (e : Err) :
    Both P (.error e : Except Err α) (.error e : Except Err β) := Or.inr ⟨e, rfl, rfl⟩

theorem Both.mono {α β : Type _} {P Q : α → β → Prop} {x : Except Err α} {y : Except Err β}
    (h : Both P x y) (hPQ : ∀ a b, P a b → Q a b) : Both Q x y := by
  rcases h with ⟨a, b, rfl, rfl, h⟩ | ⟨e, rfl, rfl⟩
  · exact Both.ok (hPQ a b h)
  · exact Both.err _ e

theorem Both.bind {α β γ δ : Type _} {P : α → β → Prop} {Q : γ → δ → Prop} {x : Except Err α}
    {y : Except Err β} {f : α → Except Err γ} {g : β → Except Err δ} (h : Both P x y)
    (hfg : ∀ a b, x = .ok a → y = .ok b → P a b → Both Q (f a) (g b)) :
    Both Q (x >>= f) (y >>= g) := by
  rcases h with ⟨a, b, rfl, rfl, h⟩ | ⟨e, rfl, rfl⟩
  · exact hfg a b rfl rfl h
  · exact Both.err _ e

/-- The same first step. -/
theorem Both.bind_same {α γ δ : Type _} {Q : γ → δ → Prop} (x : Except Err α)
    {f : α → Except Err γ} {g : α → Except Err δ}
    (hfg : ∀ a, x = .ok a → Both Q (f a) (g a)) : Both Q (x >>= f) (x >>= g) := by
  cases x with
  | ok a => exact hfg a rfl
  | error e => exact Both.err _ e

/-- A step that only reads, on the left. -/
theorem Both.then_ok {α β γ : Type _} {P : α → β → Prop} {Q : γ → β → Prop} {x : Except Err α}
    {y : Except Err β} {f : α → Except Err γ} (h : Both P x y)
    (hf : ∀ a b, P a b → ∃ c, f a = .ok c ∧ Q c b) : Both Q (x >>= f) y := by
  rcases h with ⟨a, b, rfl, rfl, h⟩ | ⟨e, rfl, rfl⟩
  · obtain ⟨c, hc, hQ⟩ := hf a b h
    exact Or.inl ⟨c, b, by simp [hc], rfl, hQ⟩
  · exact Both.err _ e

/-- The same check first. -/
theorem Both.assert {γ δ : Type _} {Q : γ → δ → Prop} {p : Prop} [Decidable p]
    {f : Unit → Except Err γ} {g : Unit → Except Err δ}
    (hfg : p → Both Q (f ()) (g ())) : Both Q (assertM (decide p) >>= f) (assertM (decide p) >>= g) :=
  Both.bind_same _ (fun _ ha => hfg (of_decide_eq_true (assertM_eq_ok.1 ha)))

/-- Computing a vector against running a loop. -/
theorem collect_loop {α σ : Type} [Inhabited α] {n : Nat} {f : Nat → Except Err α}
    {body : Nat → σ → Except Err σ} {s : σ} (P : Nat → (Nat → α) → σ → Prop)
    (h0 : P 0 (fun _ => default) s)
    (hstep : ∀ k < n, ∀ g s, P k g s →
      Both (fun x s' => P (k + 1) (fun i => if i = k then x else g i) s') (f k) (body k s)) :
    Both (P n) (collect n f) (loop n body s) := by
  induction n with
  | zero => exact Both.ok h0
  | succ n ih =>
    have h1 := ih (fun k hk => hstep k (by omega))
    simp only [collect, loop]
    refine h1.bind (fun g s' _ _ hP => ?_)
    exact (hstep n (by omega) g s' hP).then_ok (fun x s'' hx => ⟨_, rfl, hx⟩)

/-- Two loops side by side. -/
theorem loop_loop {σ τ : Type} {n : Nat} {f : Nat → σ → Except Err σ} {g : Nat → τ → Except Err τ}
    {s : σ} {t : τ} (P : Nat → σ → τ → Prop) (h0 : P 0 s t)
    (hstep : ∀ k < n, ∀ s t, P k s t → Both (P (k + 1)) (f k s) (g k t)) :
    Both (P n) (loop n f s) (loop n g t) := by
  induction n with
  | zero => exact Both.ok h0
  | succ n ih =>
    simp only [loop]
    exact (ih (fun k hk => hstep k (by omega))).bind (fun a b _ _ hP => hstep n (by omega) a b hP)

/-! ### targets -/

namespace Tgt

/-- Position `k` of buffer `b` is an element of the target. -/
def Cell : Tgt → Nat → Nat → Prop
  | .dense d, b, k => d.Cell b k
  | .hier m n blk, b, k => ∃ i < m, ∃ j < n, (blk i j).Cell b k

/-- The objects are valid, no element belongs to two of them, and there is a block. -/
def Ok (h : Heap R) : Tgt → Prop
  | .dense d => d.Ok h
  | .hier m n blk => 0 < m ∧ 0 < n ∧ (∀ i < m, ∀ j < n, (blk i j).Ok h) ∧
      ∀ i < m, ∀ j < n, ∀ i' < m, ∀ j' < n, (i ≠ i' ∨ j ≠ j') →
        ∀ b k, (blk i j).Cell b k → ¬ (blk i' j').Cell b k

/-- The stored elements are the entries of the value. -/
def Holds [Zero R] (h : Heap R) : Tgt → Mat R → Prop
  | .dense d, .dense c => c.rows = d.rows ∧ c.cols = d.cols ∧
      ∀ i < d.rows, ∀ j < d.cols, h.cell (d.data.getD 0) (d.loc i j) = c.val i j
  | .hier m n blk, .hier m' n' C => m' = m ∧ n' = n ∧ ∀ i < m, ∀ j < n, (blk i j).Holds h (C i j)
  | _, _ => False

theorem Ok.same [Zero R] {P : Nat → Nat → Prop} {h h' : Heap R} {T : Tgt} (hT : T.Ok h)
    (hs : h.Same P h') : T.Ok h' := by
  induction T with
  | dense d => exact DObj.Ok.ext hT hs.ext
  | hier m n blk ih =>
    obtain ⟨h1, h2, h3, h4⟩ := hT
    exact ⟨h1, h2, fun i hi j hj => ih i j (h3 i hi j hj), h4⟩

theorem Holds.same [Zero R] {P : Nat → Nat → Prop} {h h' : Heap R} {T : Tgt} {c : Mat R}
    (hT : T.Ok h) (hc : T.Holds h c) (hs : h.Same P h') (hP : ∀ b k, T.Cell b k → ¬ P b k) :
    T.Holds h' c := by
  induction T generalizing c with
  | dense d =>
    cases c <;> try exact hc.elim
    obtain ⟨h1, h2, h3⟩ := hc
    refine ⟨h1, h2, fun i hi j hj => ?_⟩
    rw [← h3 i hi j hj]
    obtain ⟨b, hb, -⟩ := hT
    exact hs.2.2 _ _ (hP _ _ ⟨by rw [hb]; rfl, i, hi, j, hj, rfl⟩)
  | hier m n blk ih =>
    cases c <;> try exact hc.elim
    obtain ⟨h1, h2, h3⟩ := hc
    exact ⟨h1, h2, fun i hi j hj => ih i j (hT.2.2.1 i hi j hj) (h3 i hi j hj)
      (fun b k hk => hP b k ⟨i, hi, j, hj, hk⟩)⟩

/-- A target and the value it holds have the same dimensions. -/
theorem Holds.dims [Zero R] {h : Heap R} {T : Tgt} {c : Mat R} (hT : T.Ok h) (hc : T.Holds h c) :
    c.nRows = T.nRows ∧ c.nCols = T.nCols := by
  induction T generalizing c with
  | dense d =>
    cases c <;> try exact hc.elim
    exact ⟨hc.1, hc.2.1⟩
  | hier m n blk ih =>
    cases c <;> try exact hc.elim
    obtain ⟨rfl, rfl, h3⟩ := hc
    obtain ⟨p1, p2, p3, -⟩ := hT
    constructor
    · simp only [Mat.nRows, nRows]
      exact Finset.sum_congr rfl (fun i hi => (ih i 0 (p3 i (by simpa using hi) 0 p2)
        (h3 i (by simpa using hi) 0 p2)).1)
    · simp only [Mat.nCols, nCols]
      exact Finset.sum_congr rfl (fun j hj => (ih 0 j (p3 0 p1 j (by simpa using hj))
        (h3 0 p1 j (by simpa using hj))).2)

/-- The value `c'` is what the target holds afterwards, and nothing but its elements has
changed. -/
def After [Zero R] (T : Tgt) (h : Heap R) (c' : Mat R) (h' : Heap R) : Prop :=
  T.Holds h' c' ∧ h.Same T.Cell h'

/-- The step on the heap does the same as the step on the value. -/
abbrev Sim [Zero R] (T : Tgt) (h : Heap R) (x : Except Err (Mat R)) (y : Except Err (Heap R)) : Prop :=
  Both (T.After h) x y

/-- All blocks, one after the other. -/
theorem sim_each [Zero R] {α : Type} [Inhabited α] (φ : α → Mat R) {m n : Nat} {blk : Nat → Nat → Tgt} {C : Nat → Nat → Mat R} {h : Heap R}
    (hT : (Tgt.hier m n blk).Ok h) (hC : (Tgt.hier m n blk).Holds h (.hier m n C))
    {f : Nat → Nat → Except Err α} {body : Nat → Nat → Heap R → Except Err (Heap R)}
    (hf : ∀ i < m, ∀ j < n, ∀ h', (Tgt.hier m n blk).Ok h' → (blk i j).Holds h' (C i j) →
      Both (fun x h'' => (blk i j).After h' (φ x) h'') (f i j) (body i j h')) :
    Both (fun g h' => h.Same (Tgt.hier m n blk).Cell h' ∧
        ∀ i < m, ∀ j < n, (blk i j).Holds h' (φ (g i j)))
      (collect2 m n f) (forBlocks m n body h) := by
  let Q : Nat → Nat → (Nat → Nat → α) → Heap R → Prop := fun i j g h' =>
    h.Same (Tgt.hier m n blk).Cell h' ∧ ∀ i' < m, ∀ j' < n,
      (blk i' j').Holds h' (if i' < i ∨ (i' = i ∧ j' < j) then φ (g i' j') else C i' j')
  have key : Both (Q m 0) (collect2 m n f) (forBlocks m n body h) := by
    unfold collect2 forBlocks
    refine collect_loop (P := fun i g h' => Q i 0 g h') ?_ ?_
    · refine ⟨Heap.Same.refl _ _, fun i' hi' j' hj' => ?_⟩
      rw [if_neg (by omega)]
      exact hC.2.2 i' hi' j' hj'
    · intro i hi g h1 hQ
      have row : Both (fun (x : Nat → α) h' => Q i n (fun a => if a = i then x else g a) h')
          (collect n (f i)) (loop n (fun j h => body i j h) h1) := by
        refine collect_loop (P := fun j x h' => Q i j (fun a => if a = i then x else g a) h') ?_ ?_
        · refine ⟨hQ.1, fun i' hi' j' hj' => ?_⟩
          have := hQ.2 i' hi' j' hj'
          by_cases hlt : i' < i
          · rw [if_pos (Or.inl hlt)] at this ⊢
            beta_reduce
            rw [if_neg (show ¬ i' = i by omega)]; exact this
          · rw [if_neg (by omega)] at this ⊢; exact this
        · intro j hj x h2 hx
          have hT2 := hT.same hx.1
          have hold := hx.2 i hi j hj
          rw [if_neg (by omega)] at hold
          refine (hf i hi j hj h2 hT2 hold).mono (fun c' h3 hA => ?_)
          refine ⟨hx.1.trans (hA.2.mono (fun b k hk => ⟨i, hi, j, hj, hk⟩)), fun i' hi' j' hj' => ?_⟩
          by_cases he : i' = i ∧ j' = j
          · obtain ⟨rfl, rfl⟩ := he
            rw [if_pos (by omega)]
            simp only [if_true]
            exact hA.1
          · have h4 := hx.2 i' hi' j' hj'
            have h5 := h4.same (hT2.2.2.1 i' hi' j' hj') hA.2
              (fun b k hk hk' => hT2.2.2.2 i' hi' j' hj' i hi j hj (by omega) b k hk hk')
            by_cases hc : i' < i ∨ (i' = i ∧ j' < j)
            · rw [if_pos hc] at h5
              rw [if_pos (by omega)]
              by_cases hi2 : i' = i
              · simp only [hi2, if_true] at h5 ⊢
                rw [if_neg (by omega)]
                exact h5
              · simp only [hi2, if_false] at h5 ⊢
                exact h5
            · rw [if_neg hc] at h5
              rw [if_neg (by omega)]
              exact h5
      refine row.mono (fun x h' hx => ⟨hx.1, fun i' hi' j' hj' => ?_⟩)
      have := hx.2 i' hi' j' hj'
      by_cases hc : i' < i ∨ (i' = i ∧ j' < n)
      · rw [if_pos hc] at this
        rw [if_pos (by omega)]; exact this
      · rw [if_neg hc] at this
        rw [if_neg (by omega)]; exact this
  refine key.mono (fun g h' hQ => ⟨hQ.1, fun i hi j hj => ?_⟩)
  have := hQ.2 i hi j hj
  rw [if_pos (Or.inl hi)] at this
  exact this

theorem sim_blocks [Zero R] {m n : Nat} {blk : Nat → Nat → Tgt} {C : Nat → Nat → Mat R} {h : Heap R}
    (hT : (Tgt.hier m n blk).Ok h) (hC : (Tgt.hier m n blk).Holds h (.hier m n C))
    {f : Nat → Nat → Except Err (Mat R)} {body : Nat → Nat → Heap R → Except Err (Heap R)}
    (hf : ∀ i < m, ∀ j < n, ∀ h', (Tgt.hier m n blk).Ok h' → (blk i j).Holds h' (C i j) →
      Sim (blk i j) h' (f i j) (body i j h')) :
    Sim (.hier m n blk) h (do
      let g ← collect2 m n f
      .ok (.hier m n g)) (forBlocks m n body h) :=
  (sim_each id hT hC hf).then_ok (fun g h' hQ => ⟨_, rfl, ⟨rfl, rfl, hQ.2⟩, hQ.1⟩)

/-! ### single objects -/

/-- A function of dense matrices that only looks at the entries inside the matrix. -/
def Local (f : Dense R → Except Err (Dense R)) : Prop :=
  ∀ c c' : Dense R, c'.rows = c.rows → c'.cols = c.cols →
    (∀ i < c.rows, ∀ j < c.cols, c'.val i j = c.val i j) →
    Both (fun r r' : Dense R => r.rows = c.rows ∧ r.cols = c.cols ∧
      ∀ i < c.rows, ∀ j < c.cols, r'.val i j = r.val i j) (f c) (f c')

theorem sim_update [Zero R] {d : DObj} {c : Dense R} {h : Heap R} {f : Dense R → Except Err (Dense R)}
    (hd : d.Ok h) (hc : (Tgt.dense d).Holds h (.dense c)) (hf : Local f) :
    Sim (.dense d) h (do
      let r ← f c
      .ok (.dense r)) (update d f h) := by
  obtain ⟨c1, c2, c3⟩ := hc
  have hr := DObj.readable_of (Or.inl hd)
  unfold update
  rw [DObj.fetch_value hr, except_bind_ok]
  have hl := hf c (d.value h) c1.symm c2.symm (by
    intro i hi j hj
    rw [c1] at hi; rw [c2] at hj
    simp only [DObj.value]
    rw [if_pos ⟨hi, hj⟩]; exact c3 i hi j hj)
  refine hl.bind (fun r r' _ _ ⟨r1, r2, r3⟩ => ?_)
  obtain ⟨b, hb, -⟩ := id hd
  obtain ⟨h', s1, s2, s3⟩ := DObj.store_ok hb hr hd.stride_le r'.val
  rw [s1]
  refine Both.ok ⟨⟨r1.trans c1, r2.trans c2, fun i hi j hj => ?_⟩, s2⟩
  rw [hb]
  show h'.cell b _ = _
  rw [s3 i hi j hj]
  exact r3 i (by rw [c1]; exact hi) j (by rw [c2]; exact hj)

variable [CommRing R]

theorem local_gemm (a b : Dense R) (α β : R) (ta tb : Bool) :
    Local (fun c => Dense.gemm a b c α β ta tb) := by
  intro c c' e1 e2 e3
  simp only [Dense.gemm, e1, e2]
  refine Both.assert (fun _ => Both.assert (fun _ => Both.assert (fun _ => Both.ok ⟨rfl, rfl, ?_⟩)))
  intro i hi j hj
  simp only [e3 i hi j hj]

omit [CommRing R] in
theorem local_bind {α : Type} (x : Except Err α) {f : α → Dense R → Except Err (Dense R)}
    (hf : ∀ a, Local (f a)) : Local (fun c => x >>= fun a => f a c) :=
  fun c c' e1 e2 e3 => Both.bind_same x (fun a _ => hf a c c' e1 e2 e3)

theorem sim_scale {T : Tgt} {c : Mat R} {h : Heap R} (hT : T.Ok h) (hc : T.Holds h c) (β : R) :
    Sim T h (c.scale β) (T.scale β h) := by
  induction T generalizing c h with
  | dense d =>
    cases c <;> try exact hc.elim
    rename_i c
    obtain ⟨c1, c2, c3⟩ := hc
    have hd : d.Ok h := hT
    have hr := DObj.readable_of (Or.inl hd)
    obtain ⟨b, hb, -⟩ := id hd
    obtain ⟨h', s1, s2, s3⟩ := DObj.entryLoop (h := h) hb hr hd.stride_le (fun h i j => do
      let x ← d.read h i j
      .ok (x * β)) (fun i j => c.val i j * β) (by
        intro i hi j hj h' hs
        obtain ⟨b', hb', -, hread⟩ := (hr.ext hs.ext).read hi hj
        rw [hread, except_bind_ok]
        obtain rfl : b = b' := Option.some.inj (hb.symm.trans hb')
        have := c3 i hi j hj
        rw [hb] at this
        rw [hs.2.2 b (d.loc i j) (fun h => h.2 rfl)]
        exact congrArg (fun x => Except.ok (x * β)) this)
    have e : (Tgt.dense d).scale β h = .ok h' := by
      rw [← s1]
      simp only [Tgt.scale]
      unfold DObj.scale
      congr 1; funext i h; congr 1; funext j h
      cases d.read h i j <;> rfl
    rw [e]
    refine Both.ok ⟨⟨c1, c2, fun i hi j hj => ?_⟩, s2⟩
    rw [hb]; exact s3 i hi j hj
  | hier m n blk ih =>
    cases c <;> try exact hc.elim
    obtain ⟨rfl, rfl, h3⟩ := id hc
    simp only [Mat.scale, Tgt.scale]
    exact sim_blocks hT hc (fun i hi j hj h' hT' hh => ih i j (hT'.2.2.1 i hi j hj) hh)

theorem split_lowRank_leaves {b : LowRank R} {m n : Nat} {M : Mat R}
    (h : (Mat.lowRank b).split m n = .ok M) :
    ∃ B : Nat → Nat → LowRank R, M = .hier m n (fun i j => .lowRank (B i j)) := by
  simp only [Mat.split, Mat.splitOmm, Mat.splitLowRank, IndexRange.length_split] at h
  split at h
  · exact ⟨_, (Except.ok.inj h).symm⟩
  · cases h

theorem sim_addLowRank (o : LrOps R) {T : Tgt} {c : Mat R} {h : Heap R} (hT : T.Ok h)
    (hc : T.Holds h c) (X : LowRank R) :
    Sim T h (c.addAssign o (.lowRank X)) (T.addLowRank X h) := by
  induction T generalizing c h X with
  | dense d =>
    cases c <;> try exact hc.elim
    simp only [Mat.addAssign, Tgt.addLowRank]
    exact sim_update hT hc (local_bind _ (fun US => local_gemm US X.V 1 1 false false))
  | hier m n blk ih =>
    cases c <;> try exact hc.elim
    rename_i m' n' C
    obtain ⟨rfl, rfl, h3⟩ := id hc
    simp only [Mat.addAssign, Tgt.addLowRank]
    refine Both.bind_same _ (fun M hM => ?_)
    obtain ⟨B, rfl⟩ := split_lowRank_leaves hM
    simp only
    exact sim_blocks hT hc (fun i hi j hj h' hT' hh => Both.assert (fun _ => Both.assert (fun _ =>
      ih i j (hT'.2.2.1 i hi j hj) hh (B i j))))

theorem sim_scaleAdd (o : LrOps R) {T : Tgt} {c : Mat R} {h : Heap R} (hT : T.Ok h)
    (hc : T.Holds h c) (β : R) (X : LowRank R) :
    Sim T h (Mat.scaleAdd o c β X) (scaleAdd T β X h) := by
  unfold Mat.scaleAdd scaleAdd
  refine (sim_scale hT hc β).bind (fun c' h' _ _ hA => ?_)
  exact (sim_addLowRank o (hT.same hA.2) hA.1 X).mono (fun c'' h'' hB => ⟨hB.1, hA.2.trans hB.2⟩)

end Tgt
end Verif
