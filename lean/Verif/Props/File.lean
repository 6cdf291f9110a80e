import Verif.Spec.File
import Verif.Lemmas.Basic
import Mathlib.Data.List.Basic

/-
C42: reading blocks of matrix files.
-/

namespace Verif

theorem isWs_eq : isWs = isBlank := by
  funext c
  by_cases h1 : c = ' ' <;> by_cases h2 : c = '\n' <;> by_cases h3 : c = '\t' <;> by_cases h4 : c = '\r' <;>
    by_cases h5 : c = '\x0b' <;> by_cases h6 : c = '\x0c' <;> simp [isWs, isBlank, *]

/-- `l` is empty or starts with white space. -/
def EndsWord (l : List Char) : Prop := l = [] ∨ ∃ c t, l = c :: t ∧ isBlank c = true

theorem dropWhile_append_all {α : Type _} {p : α → Bool} {l l' : List α} (h : ∀ a ∈ l, p a = true) :
    (l ++ l').dropWhile p = l'.dropWhile p := by
  induction l with
  | nil => rfl
  | cons a l ih =>
    rw [List.cons_append, List.dropWhile_cons_of_pos (h a (by simp))]
    exact ih fun b hb => h b (by simp [hb])

theorem takeWhile_append_all {α : Type _} {p : α → Bool} {l l' : List α} (h : ∀ a ∈ l, p a = true) :
    (l ++ l').takeWhile p = l ++ l'.takeWhile p := by
  induction l with
  | nil => rfl
  | cons a l ih =>
    rw [List.cons_append, List.takeWhile_cons_of_pos (h a (by simp)), ih fun b hb => h b (by simp [hb])]
    rfl

theorem extract_word {α : Type _} {conv : List Char → Option α} {ws w rest : List Char} {x : α}
    (hws : ∀ c ∈ ws, isBlank c = true) (hw : IsWord w) (hr : EndsWord rest) (hx : conv w = some x) :
    Stream.extract conv ⟨ws ++ (w ++ rest), true⟩ = .ok (x, ⟨rest, !rest.isEmpty⟩) := by
  obtain ⟨hne, hw⟩ := hw
  have h1 : (ws ++ (w ++ rest)).dropWhile isBlank = w ++ rest := by
    rw [dropWhile_append_all hws]
    cases w with
    | nil => exact absurd rfl hne
    | cons c w =>
      rw [List.cons_append, List.dropWhile_cons_of_neg (by simp [hw c (by simp)])]
  have h2 : (w ++ rest).takeWhile (fun c => !isBlank c) = w := by
    rw [takeWhile_append_all (fun c hc => by simp [hw c hc])]
    rcases hr with rfl | ⟨c, t, rfl, hc⟩
    · simp
    · rw [List.takeWhile_cons_of_neg (by simp [hc]), List.append_nil]
  have h3 : (w ++ rest).dropWhile (fun c => !isBlank c) = rest := by
    rw [dropWhile_append_all (fun c hc => by simp [hw c hc])]
    rcases hr with rfl | ⟨c, t, rfl, hc⟩
    · simp
    · rw [List.dropWhile_cons_of_neg (by simp [hc])]
  simp only [Stream.extract, isWs_eq, if_true, h1, h2, h3, hx]

theorem ignore_upto {delim : Char} {w rest : List Char} (hw : ∀ c ∈ w, c ≠ delim) :
    Stream.ignore ⟨w ++ delim :: rest, true⟩ delim = ⟨rest, true⟩ := by
  have : (w ++ delim :: rest).dropWhile (fun c => c ≠ delim) = delim :: rest := by
    rw [dropWhile_append_all (fun c hc => by simpa using hw c hc), List.dropWhile_cons_of_neg (by simp)]
  simp only [Stream.ignore, if_true]
  rw [this]

theorem IsWord.noBlank {w : List Char} (h : IsWord w) : ∀ c ∈ w, c ≠ ' ' := by
  rintro c hc rfl
  have := h.2 _ hc
  simp [isBlank] at this

theorem IsWord.noNewline {w : List Char} (h : IsWord w) : ∀ c ∈ w, c ≠ '\n' := by
  rintro c hc rfl
  have := h.2 _ hc
  simp [isBlank] at this

theorem blankSep_noNewline {l : List (List Char)} (h : ∀ w ∈ l, IsWord w) : ∀ c ∈ blankSep l, c ≠ '\n' := by
  induction l with
  | nil => intro c hc; simp [blankSep] at hc
  | cons x l ih =>
    intro c hc
    cases l with
    | nil => exact (h x (by simp)).noNewline c hc
    | cons y l =>
      simp only [blankSep, List.mem_append, List.mem_cons] at hc
      rcases hc with hc | rfl | hc
      · exact (h x (by simp)).noNewline c hc
      · decide
      · exact ih (fun w hw => h w (by simp [hw])) c hc

/-- Where the reading position may be when a line is about to be read: at its
start, or still at the newline before it. -/
def Before (pre : List Char) : Prop := pre = [] ∨ pre = ['\n']

theorem Before.ws {pre : List Char} (h : Before pre) : ∀ c ∈ pre, isBlank c = true := by
  rcases h with rfl | rfl
  · simp
  · intro c hc; simp at hc; subst hc; rfl

theorem Before.noBlank {pre : List Char} (h : Before pre) : ∀ c ∈ pre, c ≠ ' ' := by
  rcases h with rfl | rfl
  · simp
  · intro c hc; simp at hc; subst hc; decide

/-- Skipping `c` items of a line with more than `c` items. -/
theorem skip_items {pre : List Char} (hp : Before pre) {items : List (List Char)} (hi : ∀ w ∈ items, IsWord w)
    (rest : List Char) : ∀ c, c < items.length →
    ∃ pre', Before pre' ∧ Stream.skip ⟨pre ++ (blankSep items ++ rest), true⟩ ' ' c =
      ⟨pre' ++ (blankSep (items.drop c) ++ rest), true⟩ := by
  intro c
  induction c with
  | zero => intro _; exact ⟨pre, hp, rfl⟩
  | succ c ih =>
    intro hc
    obtain ⟨pre', hp', he⟩ := ih (by omega)
    refine ⟨[], Or.inl rfl, ?_⟩
    rw [Stream.skip, he]
    obtain ⟨x, l, hx⟩ : ∃ x l, items.drop c = x :: l := by
      cases h : items.drop c with
      | nil => have := congrArg List.length h; simp at this; omega
      | cons x l => exact ⟨x, l, rfl⟩
    have hl : items.drop (c + 1) = l := by
      rw [← List.tail_drop, hx]; rfl
    have hlne : l ≠ [] := by
      intro h0
      rw [h0] at hl
      have := congrArg List.length hl
      simp at this
      omega
    have hxw : IsWord x := hi x (List.mem_of_mem_drop (by rw [hx]; simp))
    rw [hx, hl]
    cases l with
    | nil => exact absurd rfl hlne
    | cons y l =>
      have e : pre' ++ (blankSep (x :: y :: l) ++ rest) = (pre' ++ x) ++ ' ' :: (blankSep (y :: l) ++ rest) := by
        simp [blankSep]
      rw [e, ignore_upto]
      · rfl
      · intro a ha
        rcases List.mem_append.1 ha with ha | ha
        · exact hp'.noBlank a ha
        · exact hxw.noBlank a ha

variable {R : Type _} [Inhabited R]

/-- Separator between the items already read and the others of a line. -/
def afterItems (items : List (List Char)) (rest : List Char) : List Char :=
  match items with
  | [] => rest
  | x :: l => ' ' :: (blankSep (x :: l) ++ rest)

/-- Reading `n ≥ 1` items at the beginning of a line. -/
theorem read_items {num : List Char → Option R} {pre : List Char} (hp : Before pre) {items : List (List Char)}
    (hi : ∀ w ∈ items, IsWord w) {val : Nat → R}
    (hv : ∀ k (hk : k < items.length), num items[k] = some (val k)) {rest : List Char} (hr : EndsWord rest) :
    ∀ n, 1 ≤ n → n ≤ items.length →
    ∃ v, readItems num n ⟨pre ++ (blankSep items ++ rest), true⟩ =
      .ok (v, ⟨afterItems (items.drop n) rest, !(afterItems (items.drop n) rest).isEmpty⟩) ∧
      ∀ k < n, v k = val k := by
  intro n
  have ends : ∀ n, EndsWord (afterItems (items.drop n) rest) := by
    intro n
    cases items.drop n with
    | nil => exact hr
    | cons x l => exact Or.inr ⟨' ', _, rfl, rfl⟩
  have step : ∀ n (hn : n < items.length) (ws : List Char), (∀ c ∈ ws, isBlank c = true) →
      Stream.extract num ⟨ws ++ (blankSep (items.drop n) ++ rest), true⟩ =
        .ok (val n, ⟨afterItems (items.drop (n + 1)) rest, !(afterItems (items.drop (n + 1)) rest).isEmpty⟩) := by
    intro n hn ws hws
    have hx : items.drop n = items[n] :: items.drop (n + 1) := (List.getElem_cons_drop (by omega)).symm
    have e : blankSep (items.drop n) ++ rest = items[n] ++ afterItems (items.drop (n + 1)) rest := by
      rw [hx]
      cases items.drop (n + 1) with
      | nil => rfl
      | cons y l => simp [blankSep, afterItems]
    rw [e]
    exact extract_word hws (hi _ (List.getElem_mem _)) (ends _) (hv n hn)
  induction n with
  | zero => intro h; omega
  | succ n ih =>
    intro _ hn
    by_cases h0 : n = 0
    · subst h0
      refine ⟨fun k => if k = 0 then val 0 else default, ?_, ?_⟩
      · have := step 0 (by omega) pre hp.ws
        simp only [List.drop_zero, Nat.zero_add] at this
        simp only [readItems, loop, except_bind_ok, this, Nat.zero_add]
      · intro k hk
        have : k = 0 := by omega
        subst this
        exact if_pos rfl
    · obtain ⟨v, hread, hval⟩ := ih (by omega) (by omega)
      have hne : ∃ x l, items.drop n = x :: l :=
        ⟨items[n]'(by omega), items.drop (n + 1), (List.getElem_cons_drop (by omega)).symm⟩
      obtain ⟨x, l, hx⟩ := hne
      have haft : afterItems (items.drop n) rest = [' '] ++ (blankSep (items.drop n) ++ rest) := by
        rw [hx]; rfl
      refine ⟨fun k => if k = n then val n else v k, ?_, ?_⟩
      · rw [readItems] at hread ⊢
        rw [loop, hread]
        simp only [except_bind_ok]
        rw [haft]
        have hg : (!([' '] ++ (blankSep (items.drop n) ++ rest)).isEmpty) = true := rfl
        rw [hg, step n (by omega) [' '] (by simp [isBlank])]
        rfl
      · intro k hk
        show (if k = n then val n else v k) = val k
        by_cases hkn : k = n
        · rw [if_pos hkn, hkn]
        · rw [if_neg hkn]; exact hval k (by omega)

/-- Reading one line. -/
theorem read_line {num : List Char → Option R} {pre : List Char} (hp : Before pre) {items : List (List Char)}
    (hi : ∀ w ∈ items, IsWord w) {val : Nat → R}
    (hv : ∀ k (hk : k < items.length), num items[k] = some (val k)) {rest : List Char}
    (hr : rest = [] ∨ ∃ t, rest = '\n' :: t) {c n : Nat} (hn : 1 ≤ n) (hcn : c + n ≤ items.length) :
    ∃ v s, readLine num c n (decide (c + n < items.length)) ⟨pre ++ (blankSep items ++ rest), true⟩ = .ok (v, s) ∧
      (∀ k < n, v k = val (c + k)) ∧
      (∀ t, rest = '\n' :: t → ∃ pre', Before pre' ∧ s = ⟨pre' ++ t, true⟩) := by
  have hrw : EndsWord rest := by
    rcases hr with h | ⟨t, h⟩
    · exact Or.inl h
    · exact Or.inr ⟨'\n', t, h, rfl⟩
  obtain ⟨pre', hp', hs⟩ := skip_items hp hi rest c (by omega)
  obtain ⟨v, hread, hval⟩ := read_items (num := num) hp' (items := items.drop c)
    (fun w hw => hi w (List.mem_of_mem_drop hw)) (val := fun k => val (c + k))
    (fun k hk => by
      rw [List.getElem_drop]
      exact hv _ (by simp at hk; omega)) hrw n hn (by simp; omega)
  rw [List.drop_drop] at hread
  generalize hst : (⟨afterItems (items.drop (c + n)) rest, !(afterItems (items.drop (c + n)) rest).isEmpty⟩ : Stream) = st
    at hread
  refine ⟨v, if decide (c + n < items.length) = true then st.ignore '\n' else st, ?_, hval, ?_⟩
  · rw [readLine, hs, hread]
    rfl
  · intro t ht
    subst hst
    by_cases hmore : c + n < items.length
    · refine ⟨[], Or.inl rfl, ?_⟩
      simp only [hmore, decide_true, if_true]
      cases hd : items.drop (c + n) with
      | nil => have := congrArg List.length hd; simp at this; omega
      | cons x l =>
        have e : afterItems (x :: l) rest = (' ' :: blankSep (x :: l)) ++ '\n' :: t := by
          simp [afterItems, ht]
        rw [e]
        have hg : (!((' ' :: blankSep (x :: l)) ++ '\n' :: t).isEmpty) = true := rfl
        rw [hg, ignore_upto]
        · rfl
        · intro a ha
          rcases List.mem_cons.1 ha with rfl | ha
          · decide
          · refine blankSep_noNewline (l := x :: l) ?_ a ha
            intro w hw
            exact hi w (List.mem_of_mem_drop (by rw [hd]; exact hw))
    · refine ⟨['\n'], Or.inr rfl, ?_⟩
      have hd : items.drop (c + n) = [] := List.drop_eq_nil_of_le (by omega)
      simp only [hmore, decide_false, Bool.false_eq_true, if_false, hd, afterItems, ht]
      rfl

theorem bodyText_cons {l : List (List Char)} {ls : List (List (List Char))} (h : ls ≠ []) (tail : List Char) :
    bodyText (l :: ls) tail = blankSep l ++ '\n' :: bodyText ls tail := by
  cases ls with
  | nil => exact absurd rfl h
  | cons l' ls => rfl

/-- Reading a block of lines. -/
theorem read_lines {num : List Char → Option R} {ls : List (List (List Char))} {L : Nat}
    (hlen : ∀ l ∈ ls, l.length = L) (hi : ∀ l ∈ ls, ∀ w ∈ l, IsWord w) {val : Nat → Nat → R}
    (hv : ∀ i (hi : i < ls.length) k (hk : k < ls[i].length), num ls[i][k] = some (val i k)) {tail : List Char}
    (ht : tail = [] ∨ ∃ t, tail = '\n' :: t) {r m c n : Nat} (hn : 1 ≤ n) (hcn : c + n ≤ L)
    (hrm : r + m ≤ ls.length) :
    ∃ v, readLines num r m c n (decide (c + n < L)) ⟨bodyText ls tail, true⟩ = .ok v ∧
      ∀ i < m, ∀ k < n, v i k = val (r + i) (c + k) := by
  have at_ : ∀ i (hi : i < ls.length), ls.drop i = ls[i] :: ls.drop (i + 1) := fun i hi =>
    (List.getElem_cons_drop (by omega)).symm
  have hskip : ∀ r, r < ls.length → Stream.skip ⟨bodyText ls tail, true⟩ '\n' r = ⟨bodyText (ls.drop r) tail, true⟩ := by
    intro r
    induction r with
    | zero => intro _; rfl
    | succ r ih =>
      intro hr
      rw [Stream.skip, ih (by omega), at_ r (by omega), bodyText_cons (by
        intro h0
        have := congrArg List.length h0
        simp at this
        omega), ignore_upto (blankSep_noNewline fun w hw => hi _ (List.getElem_mem _) w hw)]
  have key : ∀ i, i ≤ m → ∃ v s, loop i (fun i (p : (Nat → Nat → R) × Stream) => do
      let q ← readLine num c n (decide (c + n < L)) p.2
      .ok (fun k => if k = i then q.1 else p.1 k, q.2))
      (fun _ _ => default, Stream.skip ⟨bodyText ls tail, true⟩ '\n' r) = .ok (v, s) ∧
      (∀ i' < i, ∀ k < n, v i' k = val (r + i') (c + k)) ∧
      (i < m → ∃ pre, Before pre ∧ s = ⟨pre ++ bodyText (ls.drop (r + i)) tail, true⟩) := by
    intro i
    induction i with
    | zero =>
      intro _
      refine ⟨_, _, rfl, fun i' h => by omega, fun h => ⟨[], Or.inl rfl, ?_⟩⟩
      rw [hskip r (by omega)]
      rfl
    | succ i ih =>
      intro him
      obtain ⟨v, s, hl, hval, hpos⟩ := ih (by omega)
      obtain ⟨pre, hpre, rfl⟩ := hpos (by omega)
      have hri : r + i < ls.length := by omega
      -- the text from here on
      have htext : ∃ rest, bodyText (ls.drop (r + i)) tail = blankSep ls[r + i] ++ rest ∧
          (rest = [] ∨ ∃ t, rest = '\n' :: t) ∧
          (r + i + 1 < ls.length → rest = '\n' :: bodyText (ls.drop (r + i + 1)) tail) := by
        by_cases hlast : r + i + 1 < ls.length
        · refine ⟨_, ?_, Or.inr ⟨_, rfl⟩, fun _ => rfl⟩
          rw [at_ (r + i) hri, bodyText_cons]
          intro h0
          have := congrArg List.length h0
          simp at this
          omega
        · refine ⟨tail, ?_, ht, fun h => absurd h hlast⟩
          rw [at_ (r + i) hri, List.drop_eq_nil_of_le (by omega)]
          rfl
      obtain ⟨rest, e1, e2, e3⟩ := htext
      have hL : ls[r + i].length = L := hlen _ (List.getElem_mem _)
      obtain ⟨w, s', hread, hw, hs'⟩ := read_line (num := num) hpre (items := ls[r + i])
        (fun w hw => hi _ (List.getElem_mem _) w hw) (val := val (r + i)) (fun k hk => hv _ hri k hk) e2 hn
        (c := c) (by rw [hL]; exact hcn)
      rw [hL] at hread
      refine ⟨fun k => if k = i then w else v k, s', ?_, ?_, ?_⟩
      · rw [loop, hl]
        simp only [except_bind_ok]
        rw [e1, hread]
        rfl
      · intro i' hi' k hk
        show (if i' = i then w else v i') k = _
        by_cases h : i' = i
        · rw [if_pos h, h]; exact hw k hk
        · rw [if_neg h]; exact hval i' (by omega) k hk
      · intro h
        exact hs' _ (e3 (by omega))
  obtain ⟨v, s, h1, h2, -⟩ := key m (Nat.le_refl _)
  exact ⟨v, by rw [readLines, h1]; rfl, h2⟩

/-- Reading nothing from any stream. -/
theorem read_lines_empty {num : List Char → Option R} (r m c : Nat) (more : Bool) (s : Stream) :
    ∃ v, readLines num r m c 0 more s = .ok v := by
  have : ∀ i s0, ∃ p, loop i (fun i (p : (Nat → Nat → R) × Stream) => do
      let q ← readLine num c 0 more p.2
      .ok (fun k => if k = i then q.1 else p.1 k, q.2)) s0 = .ok p := by
    intro i
    induction i with
    | zero => intro s0; exact ⟨s0, rfl⟩
    | succ i ih =>
      intro s0
      obtain ⟨p, hp⟩ := ih s0
      rw [loop, hp]
      exact ⟨_, rfl⟩
  obtain ⟨p, hp⟩ := this m _
  exact ⟨_, by rw [readLines, hp]; rfl⟩

/-- C42.  Reading a block of a matrix file gives exactly the entries of the matrix
in that block, for both layouts and every block inside the matrix. -/
theorem C42_block {int : List Char → Option Nat} {num : List Char → Option R} {chars : List Char}
    {layout : MatrixLayout} {N M : Nat} {F : Nat → Nat → R} (hfile : IsMatrixFile int num chars layout N M F)
    {m n r c : Nat} (hrm : r + m ≤ N) (hcn : c + n ≤ M) (A : Nat → Nat → R) :
    ∃ A', fillFromFile int num (some chars) layout A m n r c = .ok A' ∧
      (∀ i < m, ∀ j < n, A' i j = F (r + i) (c + j)) ∧
      (∀ i j, ¬ (i < m ∧ j < n) → A' i j = A i j) := by
  obtain ⟨tN, tM, text, tail, wN, iN, wM, iM, htext, htail, rfl⟩ := hfile
  have hd0 : ∀ b, Stream.extract int ⟨tN ++ ' ' :: tM ++ '\n' :: b, true⟩ =
      .ok (N, ⟨' ' :: (tM ++ '\n' :: b), true⟩) := by
    intro b
    have := extract_word (conv := int) (ws := []) (w := tN) (rest := ' ' :: (tM ++ '\n' :: b)) (x := N)
      (by simp) wN (Or.inr ⟨' ', _, rfl, rfl⟩) iN
    simpa using this
  have hd1 : ∀ b, Stream.extract int ⟨' ' :: (tM ++ '\n' :: b), true⟩ = .ok (M, ⟨'\n' :: b, true⟩) := by
    intro b
    have := extract_word (conv := int) (ws := [' ']) (w := tM) (rest := '\n' :: b) (x := M)
      (by simp [isBlank]) wM (Or.inr ⟨'\n', _, rfl, rfl⟩) iM
    simpa using this
  have hig : ∀ b, Stream.ignore1 ⟨'\n' :: b, true⟩ = ⟨b, true⟩ := fun b => rfl
  simp only [fillFromFile, hd0, hd1, except_bind_ok, hig, assertM, hrm, hcn, decide_true, if_true]
  cases layout with
  | rowMajor =>
    simp only
    by_cases hn : n = 0
    · subst hn
      obtain ⟨v, hv⟩ := read_lines_empty (num := num) r m c (decide (c + 0 < M)) ⟨_, true⟩
      rw [hv]
      exact ⟨_, rfl, fun i _ j hj => by omega, fun i j h => if_neg h⟩
    · obtain ⟨v, hv, hval⟩ := read_lines (num := num)
        (ls := (List.range N).map fun i => (List.range M).map fun j => text i j) (L := M)
        (by simp +contextual) (by
          intro l hl w hw
          simp only [List.mem_map, List.mem_range] at hl
          obtain ⟨i, hi, rfl⟩ := hl
          simp only [List.mem_map, List.mem_range] at hw
          obtain ⟨j, hj, rfl⟩ := hw
          exact (htext i hi j hj).1) (val := F) (by
          intro i hi k hk
          simp only [List.length_map, List.length_range] at hi hk
          simp only [List.getElem_map, List.getElem_range, List.length_map, List.length_range] at hk ⊢
          exact (htext i hi k hk).2) htail (r := r) (m := m) (c := c) (n := n) (by omega) hcn (by simpa using hrm)
      rw [hv]
      refine ⟨_, rfl, fun i hi j hj => ?_, fun i j h => if_neg h⟩
      show (if i < m ∧ j < n then v i j else A i j) = _
      rw [if_pos ⟨hi, hj⟩]
      exact hval i hi j hj
  | columnMajor =>
    simp only
    by_cases hm : m = 0
    · subst hm
      obtain ⟨v, hv⟩ := read_lines_empty (num := num) c n r (decide (r + 0 < N)) ⟨_, true⟩
      rw [hv]
      exact ⟨_, rfl, fun i hi => by omega, fun i j h => if_neg h⟩
    · obtain ⟨v, hv, hval⟩ := read_lines (num := num)
        (ls := (List.range M).map fun j => (List.range N).map fun i => text i j) (L := N)
        (by simp +contextual) (by
          intro l hl w hw
          simp only [List.mem_map, List.mem_range] at hl
          obtain ⟨j, hj, rfl⟩ := hl
          simp only [List.mem_map, List.mem_range] at hw
          obtain ⟨i, hi, rfl⟩ := hw
          exact (htext i hi j hj).1) (val := fun j i => F i j) (by
          intro j hj k hk
          simp only [List.length_map, List.length_range] at hj hk
          simp only [List.getElem_map, List.getElem_range, List.length_map, List.length_range] at hk ⊢
          exact (htext k hk j hj).2) htail (r := c) (m := n) (c := r) (n := m) (by omega) hrm (by simpa using hcn)
      rw [hv]
      refine ⟨_, rfl, fun i hi j hj => ?_, fun i j h => if_neg h⟩
      show (if i < m ∧ j < n then v j i else A i j) = _
      rw [if_pos ⟨hi, hj⟩]
      exact hval j hj i hi

/-- A missing file leaves the matrix unchanged. -/
theorem C42_no_file (int : List Char → Option Nat) (num : List Char → Option R) (layout : MatrixLayout)
    (A : Nat → Nat → R) (m n r c : Nat) : fillFromFile int num none layout A m n r c = .ok A := rfl

/-- A block that sticks out of the matrix in the file violates an assertion. -/
theorem C42_outside {int : List Char → Option Nat} {num : List Char → Option R} {chars : List Char}
    {layout : MatrixLayout} {N M : Nat} {F : Nat → Nat → R} (hfile : IsMatrixFile int num chars layout N M F)
    {m n r c : Nat} (h : N < r + m ∨ M < c + n) (A : Nat → Nat → R) :
    fillFromFile int num (some chars) layout A m n r c = .error .assertFail := by
  obtain ⟨tN, tM, text, tail, wN, iN, wM, iM, -, -, rfl⟩ := hfile
  have hd0 : ∀ b, Stream.extract int ⟨tN ++ ' ' :: tM ++ '\n' :: b, true⟩ =
      .ok (N, ⟨' ' :: (tM ++ '\n' :: b), true⟩) := by
    intro b
    have := extract_word (conv := int) (ws := []) (w := tN) (rest := ' ' :: (tM ++ '\n' :: b)) (x := N)
      (by simp) wN (Or.inr ⟨' ', _, rfl, rfl⟩) iN
    simpa using this
  have hd1 : ∀ b, Stream.extract int ⟨' ' :: (tM ++ '\n' :: b), true⟩ = .ok (M, ⟨'\n' :: b, true⟩) := by
    intro b
    have := extract_word (conv := int) (ws := [' ']) (w := tM) (rest := '\n' :: b) (x := M)
      (by simp [isBlank]) wM (Or.inr ⟨'\n', _, rfl, rfl⟩) iM
    simpa using this
  simp only [fillFromFile, hd0, hd1, except_bind_ok, assertM]
  by_cases h1 : r + m ≤ N
  · have h2 : ¬ (c + n ≤ M) := by omega
    simp only [h1, h2, decide_true, decide_false, if_true]
    rfl
  · simp only [h1, decide_false]
    rfl

/-- Conversion of decimal digits, for the examples. -/
def digits (w : List Char) : Option Nat :=
  if w.all Char.isDigit && !w.isEmpty then some (w.foldl (fun a c => 10 * a + (c.toNat - '0'.toNat)) 0) else none

/-- The 2-by-3 matrix with rows 1 2 3 and 40 50 60, written row by row. -/
example : IsMatrixFile digits digits "2 3\n1 2 3\n40 50 60\n".toList .rowMajor 2 3
    (fun i j => (j + 1) * (if i = 0 then 1 else 10) + (if i = 0 then 0 else 30)) := by
  refine ⟨['2'], ['3'], fun i j => if i = 0 then [Char.ofNat (49 + j)] else [Char.ofNat (52 + j), '0'], ['\n'],
    ⟨by simp, by decide⟩, by decide, ⟨by simp, by decide⟩, by decide, ?_, Or.inr ⟨[], rfl⟩, by decide +kernel⟩
  have h : ∀ i < 2, ∀ j < 3,
      (∀ c ∈ (if i = 0 then [Char.ofNat (49 + j)] else [Char.ofNat (52 + j), '0']), isBlank c = false) ∧
      digits (if i = 0 then [Char.ofNat (49 + j)] else [Char.ofNat (52 + j), '0']) =
        some ((j + 1) * (if i = 0 then 1 else 10) + (if i = 0 then 0 else 30)) := by decide +kernel
  intro i hi j hj
  refine ⟨⟨?_, (h i hi j hj).1⟩, (h i hi j hj).2⟩
  show (if i = 0 then _ else _) ≠ []
  split <;> simp

/-- Blanks at the end of lines are not harmless: with them, a block that reaches
the last column but does not start at the first one is read shifted from its
second row on. -/
theorem C42_trailing_blank :
    ∃ A', fillFromFile digits digits (some "2 2\n1 2 \n3 4 \n".toList) .rowMajor (fun _ _ => 0) 2 1 0 1 = .ok A' ∧
      A' 0 0 = 2 ∧ A' 1 0 = 3 := by
  refine okAnd_spec (x := fillFromFile digits digits (some "2 2\n1 2 \n3 4 \n".toList) .rowMajor (fun _ _ => 0) 2 1 0 1)
    (P := fun A' => decide (A' 0 0 = 2 ∧ A' 1 0 = 3)) (by decide +kernel) |>.imp fun A' h => ⟨h.1, by simpa using h.2⟩

end Verif
