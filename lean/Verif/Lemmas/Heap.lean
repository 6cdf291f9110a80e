import Verif.Spec.Heap
import Verif.Lemmas.Basic
import Mathlib.Tactic.Ring
import Mathlib.Tactic.Linarith

/-
Elements, writes and copies of dense objects on the heap.
-/

namespace Verif

variable {R : Type}

/-- Length of a buffer. -/
def Heap.size (h : Heap R) (b : Nat) : Nat := (h.getD b []).length

/-- Element of a buffer. -/
def Heap.cell [Zero R] (h : Heap R) (b k : Nat) : R := (h.getD b []).getD k 0

/-- Every buffer of `h` is a buffer of `h'` of the same length. -/
def Heap.Ext (h h' : Heap R) : Prop := h.length ≤ h'.length ∧ ∀ b < h.length, h'.size b = h.size b

theorem Heap.Ext.refl (h : Heap R) : h.Ext h := ⟨Nat.le_refl _, fun _ _ => rfl⟩

theorem Heap.Ext.trans {h h' h'' : Heap R} (a : h.Ext h') (b : h'.Ext h'') : h.Ext h'' :=
  ⟨Nat.le_trans a.1 b.1, fun k hk => by rw [b.2 k (Nat.lt_of_lt_of_le hk a.1), a.2 k hk]⟩

namespace DObj

/-- Position of element `(i,j)` in the buffer. -/
def loc (d : DObj) (i j : Nat) : Nat := d.off + (i * d.stride + j)

theorem access_eq_ok {h : Heap R} {d : DObj} {i j : Nat} {a : Nat × Nat} :
    d.access h i j = .ok a ↔ i < d.rows ∧ j < d.cols ∧
      ∃ b, d.data = some b ∧ d.loc i j < h.size b ∧ a = (b, d.loc i j) := by
  unfold access
  simp only [except_bind_eq_ok, assertM_eq_ok, decide_eq_true_eq, exists_and_left, exists_const,
    elem]
  refine and_congr_right fun _ => and_congr_right fun _ => ?_
  cases hd : d.data with
  | none => simp
  | some b =>
    simp only [Heap.size, Option.some.injEq, loc]
    constructor
    · intro h1
      split at h1
      · exact ⟨b, rfl, by assumption, (Except.ok.inj h1).symm⟩
      · cases h1
    · rintro ⟨b', rfl, hlt, rfl⟩
      rw [if_pos hlt]

theorem read_eq_ok [Zero R] {h : Heap R} {d : DObj} {i j : Nat} {v : R} :
    d.read h i j = .ok v ↔ i < d.rows ∧ j < d.cols ∧
      ∃ b, d.data = some b ∧ d.loc i j < h.size b ∧ v = h.cell b (d.loc i j) := by
  unfold read
  simp only [except_bind_eq_ok, access_eq_ok]
  constructor
  · rintro ⟨a, ⟨hi, hj, b, hb, hl, rfl⟩, hv⟩
    exact ⟨hi, hj, b, hb, hl, (Except.ok.inj hv).symm⟩
  · rintro ⟨hi, hj, b, hb, hl, rfl⟩
    exact ⟨_, ⟨hi, hj, b, hb, hl, rfl⟩, rfl⟩

/-- Reading depends only on the sizes and elements of the buffer of the object. -/
theorem read_congr [Zero R] {h h' : Heap R} {d : DObj}
    (hs : ∀ b, d.data = some b → h'.size b = h.size b)
    (hc : ∀ b, d.data = some b → ∀ k, h'.cell b k = h.cell b k) (i j : Nat) :
    d.read h' i j = d.read h i j := by
  unfold read access elem
  by_cases hi : i < d.rows <;> by_cases hj : j < d.cols <;> simp only [hi, hj, assertM,
    decide_true, decide_false, if_true, Bool.false_eq_true, if_false, except_bind_ok, except_bind_error]
  cases hd : d.data with
  | none => rfl
  | some b =>
    have h1 : (h'.getD b []).length = (h.getD b []).length := hs b hd
    simp only [h1]
    split
    · simp only [except_bind_ok]
      exact congrArg Except.ok (hc b hd _)
    · rfl

end DObj

theorem Heap.size_set {h : Heap R} {b : Nat} {buf : List R} (hl : buf.length = h.size b)
    (b' : Nat) : Heap.size (h.set b buf) b' = h.size b' := by
  unfold Heap.size at *
  simp only [List.getD, List.getElem?_set] at *
  by_cases hb : b = b'
  · subst hb
    by_cases hlt : b < h.length
    · simp only [hlt, if_true, Option.getD_some, hl]
    · simp only [hlt, if_false, if_true]
      rw [List.getElem?_eq_none (by omega)]
  · simp [hb]

theorem Heap.cell_set [Zero R] {h : Heap R} {b k : Nat} {v : R} (hk : k < h.size b) (b' k' : Nat) :
    Heap.cell (h.set b ((h.getD b []).set k v)) b' k' =
      if b' = b ∧ k' = k then v else h.cell b' k' := by
  have hb : b < h.length := by
    by_contra hc
    simp only [Heap.size, List.getD, List.getElem?_eq_none (Nat.le_of_not_lt hc)] at hk
    simp at hk
  unfold Heap.cell Heap.size at *
  by_cases hbb : b' = b
  · subst hbb
    simp only [List.getD, List.getElem?_set, hb, if_true, true_and, Option.getD_some]
    by_cases hkk : k' = k
    · subst hkk
      simp only [List.getD] at hk
      simp [hk]
    · have : ¬ k = k' := fun e => hkk e.symm
      simp [hkk, this]
  · have : ¬ b = b' := fun e => hbb e.symm
    simp [hbb, this, List.getD]

theorem Heap.size_append_lt {h : Heap R} {l : List R} {b : Nat} (hb : b < h.length) :
    Heap.size (h ++ [l]) b = h.size b := by
  simp [Heap.size, List.getD, List.getElem?_append_left hb]

theorem Heap.size_append_eq {h : Heap R} {l : List R} :
    Heap.size (h ++ [l]) h.length = l.length := by
  simp [Heap.size, List.getD]

theorem Heap.cell_append_lt [Zero R] {h : Heap R} {l : List R} {b : Nat} (hb : b < h.length) (k : Nat) :
    Heap.cell (h ++ [l]) b k = h.cell b k := by
  simp [Heap.cell, List.getD, List.getElem?_append_left hb]

theorem Heap.lt_of_size {h : Heap R} {b k : Nat} (hk : k < h.size b) : b < h.length := by
  by_contra hc
  simp only [Heap.size, List.getD, List.getElem?_eq_none (Nat.le_of_not_lt hc)] at hk
  simp at hk

namespace DObj

/-- Effect of a write. -/
theorem write_spec [Zero R] {h h' : Heap R} {d : DObj} {i j : Nat} {v : R}
    (hw : d.write h i j v = .ok h') : i < d.rows ∧ j < d.cols ∧ ∃ b, d.data = some b ∧
      d.loc i j < h.size b ∧ h'.length = h.length ∧ (∀ b', h'.size b' = h.size b') ∧
      ∀ b' k, h'.cell b' k = if b' = b ∧ k = d.loc i j then v else h.cell b' k := by
  unfold write at hw
  simp only [except_bind_eq_ok, access_eq_ok] at hw
  obtain ⟨a, ⟨hi, hj, b, hb, hl, rfl⟩, hv⟩ := hw
  cases Except.ok.inj hv
  refine ⟨hi, hj, b, hb, hl, by simp, fun b' => ?_, fun b' k => Heap.cell_set hl b' k⟩
  exact Heap.size_set (by simp [Heap.size]) b'

theorem write_ok {h : Heap R} {d : DObj} {i j b : Nat} (v : R) (hi : i < d.rows) (hj : j < d.cols)
    (hb : d.data = some b) (hl : d.loc i j < h.size b) : ∃ h', d.write h i j v = .ok h' := by
  have := access_eq_ok.2 ⟨hi, hj, b, hb, hl, rfl⟩
  exact ⟨_, by unfold write; rw [this]; rfl⟩

/-- A valid object: it refers to a buffer, its rows do not run into each other and
its last element is inside the buffer. -/
def Ok (h : Heap R) (d : DObj) : Prop :=
  ∃ b, d.data = some b ∧ b < h.length ∧ d.c0 + d.cols ≤ d.stride ∧
    d.off = d.r0 * d.stride + d.c0 ∧
    (d.rows = 0 ∨ d.cols = 0 ∨ d.off + (d.rows - 1) * d.stride + d.cols ≤ h.size b)

theorem Ok.ext {h h' : Heap R} {d : DObj} (hd : d.Ok h) (hx : h.Ext h') : d.Ok h' := by
  obtain ⟨b, h1, h2, h3, h4, h5⟩ := hd
  exact ⟨b, h1, Nat.lt_of_lt_of_le h2 hx.1, h3, h4, by rw [hx.2 b h2]; exact h5⟩

theorem loc_lt_of {d : DObj} {s i j : Nat} (hi : i < d.rows) (hj : j < d.cols)
    (h5 : d.rows = 0 ∨ d.cols = 0 ∨ d.off + (d.rows - 1) * d.stride + d.cols ≤ s) :
    d.loc i j < s := by
  have h6 : d.off + (d.rows - 1) * d.stride + d.cols ≤ s := by
    rcases h5 with h | h | h
    · omega
    · omega
    · exact h
  have h7 : i * d.stride ≤ (d.rows - 1) * d.stride := Nat.mul_le_mul_right _ (by omega)
  unfold loc
  omega

theorem Ok.access {h : Heap R} {d : DObj} (hd : d.Ok h) {i j : Nat} (hi : i < d.rows)
    (hj : j < d.cols) : ∃ b, d.data = some b ∧ d.loc i j < h.size b ∧
      d.access h i j = .ok (b, d.loc i j) := by
  obtain ⟨b, h1, h2, h3, h4, h5⟩ := hd
  have hl := loc_lt_of hi hj h5
  exact ⟨b, h1, hl, access_eq_ok.2 ⟨hi, hj, b, h1, hl, rfl⟩⟩

theorem Ok.read [Zero R] {h : Heap R} {d : DObj} (hd : d.Ok h) {i j : Nat} (hi : i < d.rows)
    (hj : j < d.cols) : ∃ b, d.data = some b ∧ d.read h i j = .ok (h.cell b (d.loc i j)) := by
  obtain ⟨b, h1, hl, _⟩ := hd.access hi hj
  exact ⟨b, h1, read_eq_ok.2 ⟨hi, hj, b, h1, hl, rfl⟩⟩

/-- Different elements of an object are at different positions. -/
theorem Ok.loc_inj {h : Heap R} {d : DObj} (hd : d.Ok h) {i j i' j' : Nat}
    (hj : j < d.cols) (hj' : j' < d.cols) (he : d.loc i j = d.loc i' j') : i = i' ∧ j = j' := by
  obtain ⟨b, -, -, h3, -, -⟩ := hd
  unfold loc at he
  have hs : j < d.stride := by omega
  have hs' : j' < d.stride := by omega
  have he' : i * d.stride + j = i' * d.stride + j' := by omega
  have hi : i = i' := by
    have e1 : (i * d.stride + j) / d.stride = i := by
      rw [Nat.mul_comm, Nat.mul_add_div (by omega), Nat.div_eq_of_lt hs, Nat.add_zero]
    have e2 : (i' * d.stride + j') / d.stride = i' := by
      rw [Nat.mul_comm, Nat.mul_add_div (by omega), Nat.div_eq_of_lt hs', Nat.add_zero]
    rw [← e1, he', e2]
  subst hi
  exact ⟨rfl, by omega⟩

/-- A block of an object is the part of it that starts at the starts of the
ranges. -/
theorem loc_block {d : DObj} {h : Heap R} (hd : d.Ok h) (r c : Nat × Nat) (i j : Nat) :
    (d.block r c).loc i j = d.loc (r.1 + i) (c.1 + j) := by
  obtain ⟨b, -, -, -, h4, -⟩ := hd
  unfold loc block
  simp only [h4]
  ring

theorem Ok.block {d : DObj} {h : Heap R} (hd : d.Ok h) {r c : Nat × Nat}
    (hr : r.1 + r.2 ≤ d.rows) (hc : c.1 + c.2 ≤ d.cols) : (d.block r c).Ok h := by
  obtain ⟨b, h1, h2, h3, h4, h5⟩ := hd
  refine ⟨b, h1, h2, by simp only [DObj.block]; omega, rfl, ?_⟩
  by_cases hr0 : r.2 = 0
  · exact Or.inl hr0
  by_cases hc0 : c.2 = 0
  · exact Or.inr (Or.inl hc0)
  refine Or.inr (Or.inr ?_)
  have h6 : d.off + (d.rows - 1) * d.stride + d.cols ≤ h.size b := by
    rcases h5 with h | h | h
    · omega
    · omega
    · exact h
  have h7 : (r.1 + (r.2 - 1)) * d.stride ≤ (d.rows - 1) * d.stride :=
    Nat.mul_le_mul_right _ (by omega)
  simp only [DObj.block]
  have h8 : (d.r0 + r.1) * d.stride + (d.c0 + c.1) + (r.2 - 1) * d.stride + c.2
      = d.r0 * d.stride + (r.1 + (r.2 - 1)) * d.stride + (d.c0 + c.1) + c.2 := by ring
  omega

/-- Every element of the object can be accessed. -/
def Readable (h : Heap R) (d : DObj) : Prop :=
  ∀ i < d.rows, ∀ j < d.cols, ∃ b, d.data = some b ∧ d.loc i j < h.size b

theorem readable_of {h : Heap R} {d : DObj} (hd : d.Ok h ∨ d.rows = 0 ∨ d.cols = 0) :
    d.Readable h := by
  intro i hi j hj
  rcases hd with h1 | h1 | h1
  · obtain ⟨b, hb, hl, _⟩ := h1.access hi hj
    exact ⟨b, hb, hl⟩
  · omega
  · omega

theorem Readable.ext {h h' : Heap R} {d : DObj} (hd : d.Readable h) (hx : h.Ext h') :
    d.Readable h' := by
  intro i hi j hj
  obtain ⟨b, hb, hl⟩ := hd i hi j hj
  exact ⟨b, hb, by rw [hx.2 b (Heap.lt_of_size hl)]; exact hl⟩

theorem Readable.read [Zero R] {h : Heap R} {d : DObj} (hd : d.Readable h) {i j : Nat}
    (hi : i < d.rows) (hj : j < d.cols) :
    ∃ b, d.data = some b ∧ b < h.length ∧ d.read h i j = .ok (h.cell b (d.loc i j)) := by
  obtain ⟨b, hb, hl⟩ := hd i hi j hj
  exact ⟨b, hb, Heap.lt_of_size hl, read_eq_ok.2 ⟨hi, hj, b, hb, hl, rfl⟩⟩

/-! ### copying -/

/-- Copying into an object never leaves the buffers if the source and target are
valid, and changes the buffer of the target only. -/
theorem copyTo_ok [Zero R] {h : Heap R} {s t : DObj} {rs cs : Nat}
    (hs : s.Readable h) (ht : t.Ok h ∨ t.rows = 0 ∨ t.cols = 0)
    (hr : rs + t.rows ≤ s.rows) (hc : cs + t.cols ≤ s.cols) :
    ∃ h', s.copyTo h t rs cs = .ok h' ∧ h'.length = h.length ∧ (∀ b, h'.size b = h.size b) ∧
      ∀ b, t.data ≠ some b → ∀ k, h'.cell b k = h.cell b k := by
  unfold copyTo
  simp only [hr, hc, assertM, decide_true, if_true, except_bind_ok]
  let P : Heap R → Prop := fun h' => h'.length = h.length ∧ (∀ b, h'.size b = h.size b) ∧
      ∀ b, t.data ≠ some b → ∀ k, h'.cell b k = h.cell b k
  apply loop_total (fun _ => P) (⟨rfl, fun _ => rfl, fun _ _ _ => rfl⟩ : P h)
  intro i hi a ha
  apply loop_total (fun _ => P) ha
  intro j hj a ha
  obtain ⟨a1, a2, a3⟩ := ha
  have ext : h.Ext a := ⟨by omega, fun b _ => a2 b⟩
  have hs' : s.Readable a := hs.ext ext
  have ht' : t.Ok a := by
    rcases ht with h | h | h
    · exact h.ext ext
    · omega
    · omega
  obtain ⟨bs, hbs, -, hrd⟩ := hs'.read (i := rs + i) (j := cs + j) (by omega) (by omega)
  obtain ⟨bt, hbt, hlt, _⟩ := ht'.access hi hj
  obtain ⟨a', ha'⟩ := write_ok (a.cell bs (s.loc (rs + i) (cs + j))) hi hj hbt hlt
  refine ⟨a', by rw [hrd]; exact ha', ?_⟩
  obtain ⟨-, -, b, hb, -, w1, w2, w3⟩ := write_spec ha'
  refine ⟨by omega, fun b' => by rw [w2, a2], fun b' hb' k => ?_⟩
  rw [w3, if_neg (by rintro ⟨rfl, -⟩; exact hb' hb)]
  exact a3 b' hb' k

/-- Entries after copying between different buffers. -/
theorem copyTo_read [Zero R] {h h' : Heap R} {s t : DObj} {rs cs : Nat}
    (ht : t.Ok h) (hne : s.data ≠ t.data)
    (hr : rs + t.rows ≤ s.rows) (hc : cs + t.cols ≤ s.cols)
    (hok : s.copyTo h t rs cs = .ok h') :
    ∀ i < t.rows, ∀ j < t.cols, t.read h' i j = s.read h (rs + i) (cs + j) := by
  unfold copyTo at hok
  simp only [hr, hc, assertM, decide_true, if_true, except_bind_ok] at hok
  let P : Heap R → Prop := fun h' => h'.length = h.length ∧ (∀ b, h'.size b = h.size b) ∧
      ∀ b, t.data ≠ some b → ∀ k, h'.cell b k = h.cell b k
  let Q : Nat → Nat → Heap R → Prop := fun x y h' => P h' ∧ ∀ i < t.rows, ∀ j < t.cols,
      (i < x ∨ (i = x ∧ j < y)) → t.read h' i j = s.read h (rs + i) (cs + j)
  suffices Q t.rows 0 h' from fun i hi j hj => this.2 i hi j hj (Or.inl hi)
  refine loop_inv (fun x => Q x 0) ⟨⟨rfl, fun _ => rfl, fun _ _ _ => rfl⟩, ?_⟩ ?_ hok
  · intro i _ j _ hij; omega
  · intro x hx a a' ha hloop
    have : Q x t.cols a' := by
      refine loop_inv (fun y => Q x y) ha ?_ hloop
      clear hloop ha a a'
      intro y hy a a' ⟨⟨a1, a2, a3⟩, a4⟩ hbody
      rw [except_bind_eq_ok] at hbody
      obtain ⟨v, hv, hw⟩ := hbody
      obtain ⟨-, -, b, hb, hl, w1, w2, w3⟩ := write_spec hw
      refine ⟨⟨by omega, fun b' => by rw [w2, a2], fun b' hb' k => ?_⟩, ?_⟩
      · rw [w3, if_neg (by rintro ⟨rfl, -⟩; exact hb' hb)]
        exact a3 b' hb' k
      · intro i hi j hj hij
        have hta : t.Ok a := ht.ext ⟨by omega, fun b _ => a2 b⟩
        have hta' : t.Ok a' := hta.ext ⟨by omega, fun b _ => w2 b⟩
        obtain ⟨b', hb', hrd⟩ := hta'.read hi hj
        obtain rfl : b = b' := Option.some.inj (hb.symm.trans hb')
        rw [hrd, w3]
        by_cases hxy : i = x ∧ j = y
        · obtain ⟨rfl, rfl⟩ := hxy
          rw [if_pos ⟨rfl, rfl⟩, ← hv]
          refine read_congr (fun b _ => a2 b) (fun b hbs => a3 b ?_) _ _
          rw [← hbs]
          exact fun e => hne e.symm
        · rw [if_neg]
          · obtain ⟨b'', hb'', hrd'⟩ := hta.read hi hj
            obtain rfl : b = b'' := Option.some.inj (hb.symm.trans hb'')
            rw [← hrd']
            exact a4 i hi j hj (by omega)
          · rintro ⟨-, he⟩
            exact hxy (hta.loc_inj hj hy he)
    exact ⟨this.1, fun i hi j hj hij => this.2 i hi j hj (by omega)⟩

/-- Filling with a value stays in the buffer of the object. -/
theorem fill_ok [Zero R] {h : Heap R} {t : DObj} (v : R) (ht : t.Ok h ∨ t.rows = 0 ∨ t.cols = 0) :
    ∃ h', t.fill h v = .ok h' ∧ h'.length = h.length ∧ (∀ b, h'.size b = h.size b) ∧
      (∀ b, t.data ≠ some b → ∀ k, h'.cell b k = h.cell b k) := by
  unfold fill
  let P : Heap R → Prop := fun h' => h'.length = h.length ∧ (∀ b, h'.size b = h.size b) ∧
      ∀ b, t.data ≠ some b → ∀ k, h'.cell b k = h.cell b k
  apply loop_total (fun _ => P) (⟨rfl, fun _ => rfl, fun _ _ _ => rfl⟩ : P h)
  intro i hi a ha
  apply loop_total (fun _ => P) ha
  intro j hj a ha
  obtain ⟨a1, a2, a3⟩ := ha
  have ext : h.Ext a := ⟨by omega, fun b _ => a2 b⟩
  have ht' : t.Ok a := by
    rcases ht with h | h | h
    · exact h.ext ext
    · omega
    · omega
  obtain ⟨bt, hbt, hlt, _⟩ := ht'.access hi hj
  obtain ⟨a', ha'⟩ := write_ok v hi hj hbt hlt
  refine ⟨a', ha', ?_⟩
  obtain ⟨-, -, b, hb, -, w1, w2, w3⟩ := write_spec ha'
  refine ⟨by omega, fun b' => by rw [w2, a2], fun b' hb' k => ?_⟩
  rw [w3, if_neg (by rintro ⟨rfl, -⟩; exact hb' hb)]
  exact a3 b' hb' k

/-- A newly allocated object with stride `s`. -/
theorem alloc_spec [Zero R] (h : Heap R) (m n s : Nat) :
    h.Ext (alloc h m n s).1 ∧ (∀ b < h.length, ∀ k, (alloc h m n s).1.cell b k = h.cell b k) ∧
    (alloc h m n s).1.size h.length = m * n ∧ (alloc h m n s).1.length = h.length + 1 := by
  refine ⟨⟨by simp [alloc], fun b hb => Heap.size_append_lt hb⟩, fun b hb k => Heap.cell_append_lt hb k,
    ?_, by simp [alloc]⟩
  simp only [alloc]
  rw [Heap.size_append_eq]
  simp

theorem alloc_Ok [Zero R] (h : Heap R) {m n s : Nat} (hs : n ≤ s) (hg : m ≤ 1 ∨ n = 0 ∨ s = n) :
    (alloc h m n s).2.Ok (alloc h m n s).1 := by
  have h2 := (alloc_spec h m n s).2.2.1
  refine ⟨h.length, rfl, by simp [alloc], by simpa [alloc] using hs, by simp [alloc], ?_⟩
  rw [h2]
  simp only [alloc, Nat.zero_add]
  rcases hg with hg | hg | hg
  · rcases Nat.eq_zero_or_pos m with hm | hm
    · exact Or.inl hm
    · have : m = 1 := by omega
      subst this
      right; right; simp
  · exact Or.inr (Or.inl hg)
  · subst hg
    rcases Nat.eq_zero_or_pos m with hm | hm
    · exact Or.inl hm
    · right; right
      obtain ⟨m', rfl⟩ : ∃ m', m = m' + 1 := ⟨m - 1, by omega⟩
      simp only [Nat.add_sub_cancel]
      rw [Nat.succ_mul]

/-- Outcome of making a new object with the entries of `a` at the given starts. -/
theorem copyNew_ok [Zero R] {h : Heap R} {a : DObj} {m n s rs cs : Nat}
    (ha : a.Readable h) (hs : n ≤ s) (hg : m ≤ 1 ∨ n = 0 ∨ s = n)
    (hr : rs + m ≤ a.rows) (hc : cs + n ≤ a.cols) :
    ∃ h', a.copyTo (alloc h m n s).1 (alloc h m n s).2 rs cs = .ok h' ∧ h.Ext h' ∧
      (alloc h m n s).2.Ok h' ∧ h'.length = h.length + 1 ∧
      (∀ b < h.length, ∀ k, h'.cell b k = h.cell b k) ∧
      ∀ i < m, ∀ j < n, (alloc h m n s).2.read h' i j = a.read h (rs + i) (cs + j) := by
  obtain ⟨e1, e2, e3, e4⟩ := alloc_spec h m n s
  have hok := alloc_Ok h hs hg
  have ha1 : a.Readable (alloc h m n s).1 := ha.ext e1
  obtain ⟨h', h1, h2, h3, h4⟩ := copyTo_ok (rs := rs) (cs := cs) ha1 (Or.inl hok)
    (by simpa [alloc] using hr) (by simpa [alloc] using hc)
  have hext : (alloc h m n s).1.Ext h' := ⟨by omega, fun b _ => h3 b⟩
  refine ⟨h', h1, e1.trans hext, hok.ext hext, by omega, ?_, ?_⟩
  · intro b hb k
    rw [h4 b (by simp only [alloc]; intro e; have := Option.some.inj e; omega) k, e2 b hb k]
  · intro i hi j hj
    obtain ⟨b, hb, hbl, _⟩ := ha.read (i := rs + i) (j := cs + j) (by omega) (by omega)
    have hne : a.data ≠ (alloc h m n s).2.data := by
      rw [hb]; simp only [alloc]; intro e; have := Option.some.inj e; omega
    rw [copyTo_read hok hne (by simpa [alloc] using hr) (by simpa [alloc] using hc) h1
      i hi j hj]
    refine read_congr (fun b' hb' => ?_) (fun b' hb' => ?_) _ _
    · obtain rfl := Option.some.inj (hb.symm.trans hb'); exact e1.2 _ hbl
    · obtain rfl := Option.some.inj (hb.symm.trans hb'); exact e2 _ hbl

theorem copyCtor_ok [Zero R] {h : Heap R} {a : DObj} (ha : a.Readable h) :
    ∃ h', a.copyCtor h = .ok (h', (alloc h a.rows a.cols a.cols).2) ∧ h.Ext h' ∧
      (alloc h a.rows a.cols a.cols).2.Ok h' ∧ h'.length = h.length + 1 ∧
      (∀ b < h.length, ∀ k, h'.cell b k = h.cell b k) ∧
      ∀ i < a.rows, ∀ j < a.cols, (alloc h a.rows a.cols a.cols).2.read h' i j = a.read h i j := by
  obtain ⟨h', h1, h2⟩ := copyNew_ok (rs := 0) (cs := 0) (s := a.cols) ha (Nat.le_refl _) (Or.inr (Or.inr rfl))
    (Nat.le_of_eq (Nat.zero_add a.rows)) (Nat.le_of_eq (Nat.zero_add a.cols))
  refine ⟨h', by unfold copyCtor; simp only [h1]; rfl, ?_⟩
  simpa using h2

end DObj

end Verif
