import Verif.Spec.HeapOps
import Verif.Lemmas.MemRun


/-
Loops and routine calls on the stored elements.
-/

namespace Verif

variable {R : Type}

namespace DObj

/-- Position `k` of buffer `b` is element of the object. -/
def Cell (d : DObj) (b k : Nat) : Prop :=
  d.data = some b ∧ ∃ i < d.rows, ∃ j < d.cols, k = d.loc i j

/-- The entries of an object. -/
def value [Zero R] (h : Heap R) (d : DObj) : Dense R :=
  ⟨d.rows, d.cols, fun i j => if i < d.rows ∧ j < d.cols then
    h.cell (d.data.getD 0) (d.loc i j) else 0⟩

/-- Elements of the object are at different positions. -/
theorem loc_inj' {d : DObj} (hs : d.cols ≤ d.stride) {i j i' j' : Nat}
    (hj : j < d.cols) (hj' : j' < d.cols) (he : d.loc i j = d.loc i' j') : i = i' ∧ j = j' := by
  unfold loc at he
  have hs1 : j < d.stride := by omega
  have hs2 : j' < d.stride := by omega
  have he' : i * d.stride + j = i' * d.stride + j' := by omega
  have hi : i = i' := by
    have e1 : (i * d.stride + j) / d.stride = i := by
      rw [Nat.mul_comm, Nat.mul_add_div (by omega), Nat.div_eq_of_lt hs1, Nat.add_zero]
    have e2 : (i' * d.stride + j') / d.stride = i' := by
      rw [Nat.mul_comm, Nat.mul_add_div (by omega), Nat.div_eq_of_lt hs2, Nat.add_zero]
    rw [← e1, he', e2]
  subst hi
  exact ⟨rfl, by omega⟩

/-- Two heaps with the same buffers that differ at most at the given positions. -/
def _root_.Verif.Heap.Same [Zero R] (P : Nat → Nat → Prop) (h h' : Heap R) : Prop :=
  h'.length = h.length ∧ (∀ b, h'.size b = h.size b) ∧ ∀ b k, ¬ P b k → h'.cell b k = h.cell b k

theorem _root_.Verif.Heap.Same.refl [Zero R] (P : Nat → Nat → Prop) (h : Heap R) : h.Same P h :=
  ⟨rfl, fun _ => rfl, fun _ _ _ => rfl⟩

theorem _root_.Verif.Heap.Same.mono [Zero R] {P Q : Nat → Nat → Prop} {h h' : Heap R} (a : h.Same P h')
    (hPQ : ∀ b k, P b k → Q b k) : h.Same Q h' :=
  ⟨a.1, a.2.1, fun b k hk => a.2.2 b k (fun h => hk (hPQ b k h))⟩

theorem _root_.Verif.Heap.Same.trans [Zero R] {P : Nat → Nat → Prop} {h h' h'' : Heap R} (a : h.Same P h')
    (b : h'.Same P h'') : h.Same P h'' :=
  ⟨b.1.trans a.1, fun k => (b.2.1 k).trans (a.2.1 k),
    fun x k hk => (b.2.2 x k hk).trans (a.2.2 x k hk)⟩

theorem _root_.Verif.Heap.Same.ext [Zero R] {P : Nat → Nat → Prop} {h h' : Heap R} (a : h.Same P h') :
    h.Ext h' := ⟨Nat.le_of_eq a.1.symm, fun b _ => a.2.1 b⟩

/-- A loop over the entries of an object that writes each of them once. -/
theorem entryLoop [Zero R] {h : Heap R} {A : DObj} {b : Nat} (hb : A.data = some b)
    (hA : A.Readable h) (hs : A.cols ≤ A.stride) (f : Heap R → Nat → Nat → Except Err R)
    (v : Nat → Nat → R)
    (hf : ∀ i < A.rows, ∀ j < A.cols, ∀ h', h.Same (fun b' k => A.Cell b' k ∧ k ≠ A.loc i j) h' →
      f h' i j = .ok (v i j)) :
    ∃ h', loop A.rows (fun i h => loop A.cols (fun j h => do
        let x ← f h i j
        A.write h i j x) h) h = .ok h' ∧ h.Same A.Cell h' ∧
      ∀ i < A.rows, ∀ j < A.cols, h'.cell b (A.loc i j) = v i j := by
  let P : Nat → Nat → Heap R → Prop := fun i j h' => h.Same A.Cell h' ∧
    ∀ i' < A.rows, ∀ j' < A.cols, h'.cell b (A.loc i' j') =
      if i' < i ∨ (i' = i ∧ j' < j) then v i' j' else h.cell b (A.loc i' j')
  have key : ∃ h', loop A.rows (fun i h => loop A.cols (fun j h => do
        let x ← f h i j
        A.write h i j x) h) h = .ok h' ∧ P A.rows 0 h' := by
    apply loop_total (fun i => P i 0)
    · exact ⟨Heap.Same.refl _ h, fun i' _ j' _ => by rw [if_neg (by omega)]⟩
    intro i hi a ha
    have : ∃ h', loop A.cols (fun j h => do
        let x ← f h i j
        A.write h i j x) a = .ok h' ∧ P i A.cols h' := by
      apply loop_total (fun j => P i j) ha
      intro j hj a ha
      obtain ⟨a1, a2⟩ := ha
      have hx := hf i hi j hj a ⟨a1.1, a1.2.1, fun b' k hk => by
        by_cases hc : A.Cell b' k
        · have hk' : k = A.loc i j := by
            by_contra hne
            exact hk ⟨hc, hne⟩
          obtain rfl : b = b' := Option.some.inj (hb.symm.trans hc.1)
          rw [hk', a2 i hi j hj, if_neg (by omega)]
        · exact a1.2.2 b' k hc⟩
      obtain ⟨b', hb', hl⟩ := hA i hi j hj
      obtain rfl : b = b' := Option.some.inj (hb.symm.trans hb')
      obtain ⟨a', hw⟩ := write_ok (h := a) (v i j) hi hj hb (by rw [a1.2.1]; exact hl)
      refine ⟨a', by simp only [hx, except_bind_ok]; exact hw, ?_⟩
      obtain ⟨-, -, b', hb', -, w1, w2, w3⟩ := write_spec hw
      obtain rfl : b = b' := Option.some.inj (hb.symm.trans hb')
      refine ⟨⟨by rw [w1]; exact a1.1, fun x => by rw [w2]; exact a1.2.1 x, fun x k hk => ?_⟩, ?_⟩
      · rw [w3, if_neg]
        · exact a1.2.2 x k hk
        · rintro ⟨rfl, rfl⟩
          exact hk ⟨hb, i, hi, j, hj, rfl⟩
      · intro i' hi' j' hj'
        rw [w3]
        by_cases he : A.loc i' j' = A.loc i j
        · obtain ⟨rfl, rfl⟩ := loc_inj' hs hj' hj he
          rw [if_pos ⟨rfl, rfl⟩, if_pos (by omega)]
        · rw [if_neg (fun h => he h.2), a2 i' hi' j' hj']
          have hne : ¬ (i' = i ∧ j' = j) := by rintro ⟨rfl, rfl⟩; exact he rfl
          by_cases hc : i' < i ∨ (i' = i ∧ j' < j)
          · rw [if_pos hc, if_pos (by omega)]
          · rw [if_neg hc, if_neg (by omega)]
    obtain ⟨h', h1, h2, h3⟩ := this
    refine ⟨h', h1, h2, fun i' hi' j' hj' => ?_⟩
    rw [h3 i' hi' j' hj']
    by_cases hc : i' < i ∨ (i' = i ∧ j' < A.cols)
    · rw [if_pos hc, if_pos (by omega)]
    · rw [if_neg hc, if_neg (by omega)]
  obtain ⟨h', h1, h2, h3⟩ := key
  refine ⟨h', h1, h2, fun i hi j hj => ?_⟩
  rw [h3 i hi j hj, if_pos (Or.inl hi)]

theorem fetch_value [Zero R] {h : Heap R} {a : DObj} (ha : a.Readable h) :
    a.fetch h = .ok (a.value h) := by
  let _ : Inhabited R := ⟨0⟩
  have hr : ∀ i < a.rows, ∀ j < a.cols, a.read h i j = .ok (h.cell (a.data.getD 0) (a.loc i j)) := by
    intro i hi j hj
    obtain ⟨b, hb, -, hr⟩ := ha.read hi hj
    rw [hr, hb]; rfl
  obtain ⟨g, hg⟩ := collect2_exists (m := a.rows) (n := a.cols) (f := fun i j => a.read h i j)
    (fun i hi j hj => ⟨_, hr i hi j hj⟩)
  have hg' := collect2_ok hg
  unfold fetch
  have : @collect2 R ⟨0⟩ a.rows a.cols (fun i j => a.read h i j) = .ok g := hg
  rw [this, except_bind_ok]
  congr 1
  unfold value
  congr 1
  funext i j
  by_cases hc : i < a.rows ∧ j < a.cols
  · rw [if_pos hc, if_pos hc]
    exact Except.ok.inj ((hg' i hc.1 j hc.2).symm.trans (hr i hc.1 j hc.2))
  · rw [if_neg hc, if_neg hc]

theorem store_ok [Zero R] {h : Heap R} {a : DObj} {b : Nat} (hb : a.data = some b) (ha : a.Readable h)
    (hs : a.cols ≤ a.stride) (v : Nat → Nat → R) :
    ∃ h', a.store h v = .ok h' ∧ h.Same a.Cell h' ∧
      ∀ i < a.rows, ∀ j < a.cols, h'.cell b (a.loc i j) = v i j :=
  entryLoop hb ha hs (fun _ i j => .ok (v i j)) v (fun _ _ _ _ _ _ => rfl)

end DObj

/-! ### memories that represent values -/

/-- The objects of `S` are usable and have the entries `V`. -/
def MemRep [Zero R] (objs : List DObj) (S : List Nat) (h : Heap R) (V : Nat → Dense R) : Prop :=
  ∀ o ∈ S, ∃ d, objs[o]? = some d ∧ d.Ok h ∧ 0 < d.rows ∧ 0 < d.cols ∧ V o = d.value h

/-- Different objects of `S` have no element in common. -/
def MemSep (objs : List DObj) (S : List Nat) : Prop :=
  ∀ o ∈ S, ∀ o' ∈ S, o ≠ o' → ∀ d e, objs[o]? = some d → objs[o']? = some e →
    ∀ b k, d.Cell b k → ¬ e.Cell b k

/-- The upper left corner, with zeros outside. -/
def Dense.corner [Zero R] (A : Dense R) (m n : Nat) : Dense R :=
  ⟨m, n, fun i j => if i < m ∧ j < n then A.val i j else 0⟩

namespace DObj

theorem arg_cell {d : DObj} {m n : Nat} (hm : m ≤ d.rows) (hn : n ≤ d.cols) {b k : Nat}
    (h : (d.arg m n d.stride).Cell b k) : d.Cell b k := by
  obtain ⟨hb, i, hi, j, hj, hk⟩ := h
  exact ⟨hb, i, Nat.lt_of_lt_of_le hi hm, j, Nat.lt_of_lt_of_le hj hn, hk⟩

theorem Ok.arg_readable {h : Heap R} {d : DObj} (hd : d.Ok h) {m n : Nat} (hm : m ≤ d.rows)
    (hn : n ≤ d.cols) : (d.arg m n d.stride).Readable h := by
  intro i hi j hj
  exact readable_of (Or.inl hd) i (Nat.lt_of_lt_of_le hi hm) j (Nat.lt_of_lt_of_le hj hn)

theorem Ok.stride_le {h : Heap R} {d : DObj} (hd : d.Ok h) : d.cols ≤ d.stride := by
  obtain ⟨b, -, -, h3, -⟩ := hd
  omega

theorem value_arg [Zero R] {h : Heap R} {d : DObj} {m n : Nat} (hm : m ≤ d.rows) (hn : n ≤ d.cols) :
    (d.arg m n d.stride).value h = (d.value h).corner m n := by
  unfold value Dense.corner
  congr 1
  funext i j
  by_cases hc : i < m ∧ j < n
  · have h1 : i < d.rows ∧ j < d.cols := by omega
    rw [if_pos hc]
    simp only [h1, and_self, if_true, arg, hc]
    rfl
  · rw [if_neg hc]
    exact if_neg hc

theorem value_full [Zero R] {h : Heap R} {d : DObj} :
    (d.arg d.rows d.cols d.stride).value h = d.value h := rfl

theorem shares_false {a b : DObj} (h : ∀ x k, a.Cell x k → ¬ b.Cell x k) (ha : a.data ≠ none) :
    a.shares b = false := by
  unfold shares
  rw [decide_eq_false_iff_not]
  rintro ⟨hd, i, hi, j, hj, i', hi', j', hj', he⟩
  obtain ⟨x, hx⟩ := Option.ne_none_iff_exists'.1 ha
  exact h x _ ⟨hx, i, hi, j, hj, rfl⟩ ⟨hd ▸ hx, i', hi', j', hj', he⟩

end DObj

section
variable [Zero R] {objs : List DObj} {S : List Nat} {h h' : Heap R} {V : Nat → Dense R}

/-- The memory after the entries of one object have been replaced. -/
theorem MemRep.update (hR : MemRep objs S h V) (hS : MemSep objs S) {o : Nat} (ho : o ∈ S) {d : DObj}
    (hd : objs[o]? = some d) (hs : h.Same d.Cell h') {D : Dense R} (h1 : D.rows = d.rows)
    (h2 : D.cols = d.cols)
    (h3 : ∀ b, d.data = some b → ∀ i < d.rows, ∀ j < d.cols, h'.cell b (d.loc i j) = D.val i j) :
    MemRep objs S h' (setVal V o D) := by
  intro x hx
  obtain ⟨e, he, hok, hr, hc, hv⟩ := hR x hx
  refine ⟨e, he, hok.ext hs.ext, hr, hc, ?_⟩
  unfold setVal
  by_cases hxo : x = o
  · subst hxo
    obtain rfl : e = d := Option.some.inj (he.symm.trans hd)
    rw [if_pos rfl]
    obtain ⟨b, hb, -⟩ := hok
    unfold Dense.clip DObj.value
    rw [h1, h2]
    congr 1
    funext i j
    by_cases hij : i < e.rows ∧ j < e.cols
    · rw [if_pos hij, if_pos hij, hb]
      exact (h3 b hb i hij.1 j hij.2).symm
    · rw [if_neg hij, if_neg hij]
  · rw [if_neg hxo, hv]
    unfold DObj.value
    congr 1
    funext i j
    by_cases hij : i < e.rows ∧ j < e.cols
    · rw [if_pos hij, if_pos hij]
      obtain ⟨b, hb, -⟩ := hok
      refine (hs.2.2 _ _ ?_).symm
      rw [hb]
      exact hS x hx o ho hxo e d he hd b _ ⟨hb, i, hij.1, j, hij.2, rfl⟩
    · rw [if_neg hij, if_neg hij]

/-- Storing into the upper left corner of an object. -/
theorem MemRep.store (hR : MemRep objs S h V) (hS : MemSep objs S) {o : Nat} (ho : o ∈ S) {d : DObj}
    (hd : objs[o]? = some d) {m n : Nat} (hm : m ≤ d.rows) (hn : n ≤ d.cols) (v : Nat → Nat → R)
    {D : Dense R} (h1 : D.rows = d.rows) (h2 : D.cols = d.cols)
    (h3 : ∀ i < d.rows, ∀ j < d.cols, D.val i j = if i < m ∧ j < n then v i j else (V o).val i j) :
    ∃ h', (d.arg m n d.stride).store h v = .ok h' ∧ h.Same d.Cell h' ∧
      MemRep objs S h' (setVal V o D) := by
  obtain ⟨e, he, hok, hr, hc, hv⟩ := hR o ho
  obtain rfl : e = d := Option.some.inj (he.symm.trans hd)
  obtain ⟨b, hb, -⟩ := id hok
  obtain ⟨h', hst, hsame, hval⟩ := DObj.store_ok (h := h) (a := e.arg m n e.stride) (b := b) hb
    (hok.arg_readable hm hn) (Nat.le_trans hn hok.stride_le) v
  have hs' : h.Same e.Cell h' := hsame.mono (fun b k hk => DObj.arg_cell hm hn hk)
  refine ⟨h', hst, hs', hR.update hS ho hd hs' h1 h2 ?_⟩
  intro b' hb' i hi j hj
  obtain rfl : b = b' := Option.some.inj (hb.symm.trans hb')
  rw [h3 i hi j hj]
  by_cases hij : i < m ∧ j < n
  · rw [if_pos hij]
    exact hval i hij.1 j hij.2
  · rw [if_neg hij, hsame.2.2 b _ ?_, hv]
    · simp only [DObj.value, hi, hj, and_self, if_true, hb, Option.getD_some]
    · rintro ⟨-, i', hi', j', hj', hk⟩
      have hj'' : j' < e.cols := Nat.lt_of_lt_of_le hj' hn
      obtain ⟨rfl, rfl⟩ := DObj.loc_inj' (d := e) hok.stride_le hj hj'' hk
      exact hij ⟨hi', hj'⟩

/-- What an object of `S` gives a routine that reads its upper left corner. -/
theorem MemRep.fetch (hR : MemRep objs S h V) {o : Nat} (ho : o ∈ S) {d : DObj}
    (hd : objs[o]? = some d) {m n : Nat} (hm : m ≤ d.rows) (hn : n ≤ d.cols) :
    (d.arg m n d.stride).fetch h = .ok ((V o).corner m n) := by
  obtain ⟨e, he, hok, hr, hc, hv⟩ := hR o ho
  obtain rfl : e = d := Option.some.inj (he.symm.trans hd)
  rw [DObj.fetch_value (hok.arg_readable hm hn), DObj.value_arg hm hn, hv]

theorem MemRep.dims (hR : MemRep objs S h V) {o : Nat} (ho : o ∈ S) : ∃ d, objs[o]? = some d ∧
    (V o).rows = d.rows ∧ (V o).cols = d.cols ∧ 0 < d.rows ∧ 0 < d.cols ∧ 0 < d.stride ∧
    d.cols ≤ d.stride ∧ d.data ≠ none ∧
    (V o).corner d.rows d.cols = V o := by
  obtain ⟨d, hd, hok, hr, hc, hv⟩ := hR o ho
  have h1 := hok.stride_le
  obtain ⟨b, hb, -⟩ := hok
  refine ⟨d, hd, by rw [hv]; rfl, by rw [hv]; rfl, hr, hc, by omega, h1, by simp [hb], ?_⟩
  rw [hv]
  unfold Dense.corner DObj.value
  congr 1
  funext i j
  by_cases hij : i < d.rows ∧ j < d.cols
  · simp only [hij, and_self, if_true]
  · rw [if_neg hij, if_neg hij]

theorem MemSep.shares (hS : MemSep objs S) {o o' : Nat} (ho : o ∈ S) (ho' : o' ∈ S) (hne : o ≠ o') {d e : DObj}
    (hd : objs[o]? = some d) (he : objs[o']? = some e) (hdat : d.data ≠ none) {m n m' n' : Nat}
    (hm : m ≤ d.rows) (hn : n ≤ d.cols) (hm' : m' ≤ e.rows) (hn' : n' ≤ e.cols) :
    (d.arg m n d.stride).shares (e.arg m' n' e.stride) = false :=
  DObj.shares_false (fun b k h1 h2 => hS o ho o' ho' hne d e hd he b k (DObj.arg_cell hm hn h1)
    (DObj.arg_cell hm' hn' h2)) hdat

end

end Verif
