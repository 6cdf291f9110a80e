import Verif.Model.Points
import Verif.Spec.Points
import Verif.Props.File
import Verif.Props.Morton
import Verif.Props.KernelPd

/-
C60: point sets read from a file or generated.
-/

namespace Verif
open Finset

/-! ### extraction -/

theorem into_word {α : Type _} {conv : List Char → Option α} {zero : α} {ws w rest : List Char} {x : α} {old : Option α}
    (hws : ∀ c ∈ ws, isBlank c = true) (hw : IsWord w) (hr : EndsWord rest) (hx : conv w = some x) :
    Stream.into conv zero ⟨ws ++ (w ++ rest), true⟩ old = (some x, ⟨rest, !rest.isEmpty⟩) := by
  obtain ⟨hne, hw⟩ := hw
  have h2 : (w ++ rest).takeWhile (fun c => !isBlank c) = w := by
    rw [takeWhile_append_all (fun c hc => by simp [hw c hc])]
    rcases hr with rfl | ⟨c, t, rfl, hc⟩
    · simp
    · rw [List.takeWhile_cons_of_neg (by simp [hc]), List.append_nil]
  have h3 : (w ++ rest).dropWhile (fun c => !isBlank c) = rest := by
    rw [dropWhile_append_all (fun c hc => by simp [hw c hc])]
    rcases hr with rfl | ⟨c, t, rfl, hc⟩
    · simp
    · rw [List.dropWhile_cons_of_neg (by simp [hc])]
  have h1 : (ws ++ (w ++ rest)).dropWhile isBlank = w ++ rest := by
    rw [dropWhile_append_all hws]
    cases w with
    | nil => exact absurd rfl hne
    | cons c w =>
      rw [List.cons_append, List.dropWhile_cons_of_neg (by simp [hw c (by simp)])]
  simp only [Stream.into, isWs_eq, if_true, h1]
  cases w with
  | nil => exact absurd rfl hne
  | cons c w =>
    simp only [List.cons_append] at h2 h3 ⊢
    simp only [h2, h3, hx]

theorem Words.endsWord {t tail : List Char} {l : List (List Char)} (h : Words t l tail) : EndsWord t := by
  cases h with
  | nil h => exact h
  | @cons ws w text tail l hne hws hw h =>
    cases ws with
    | nil => exact absurd rfl hne
    | cons c ws => exact .inr ⟨c, _, rfl, hws c (by simp)⟩

/-- Only white space is left, or the stream has failed. -/
def Stream.Done (s : Stream) : Prop := s.good = false ∨ ∀ c ∈ s.rest, isBlank c = true

theorem into_done {α : Type _} {conv : List Char → Option α} {zero : α} {s : Stream} (h : s.Done) (old : Option α) :
    (s.into conv zero old).1 = old ∧ (s.into conv zero old).2.Done := by
  rw [Stream.into]
  by_cases hg : s.good = true
  · rw [if_pos hg, isWs_eq]
    have hr : s.rest.dropWhile isBlank = [] := by
      rcases h with h | h
      · rw [h] at hg; exact (nomatch hg)
      · rw [← List.append_nil s.rest, dropWhile_append_all h]; rfl
    rw [hr]
    exact ⟨rfl, .inl rfl⟩
  · rw [if_neg hg]
    exact ⟨rfl, h⟩

/-- The stream holds the words `l` and `tail`. -/
def Stream.Holds (s : Stream) (l : List (List Char)) (tail : List Char) : Prop :=
  Words s.rest l tail ∧ (s.rest ≠ [] → s.good = true)

theorem into_holds {α : Type _} {conv : List Char → Option α} {zero : α} {s : Stream} {w : List Char} {l : List (List Char)}
    {tail : List Char} (h : s.Holds (w :: l) tail) {x : α} (hx : conv w = some x) (old : Option α) :
    ∃ s', s.into conv zero old = (some x, s') ∧ s'.Holds l tail := by
  obtain ⟨hw, hg⟩ := h
  obtain ⟨rest, good⟩ := s
  simp only at hw hg
  cases hw with
  | @cons ws w text tail l hne hws hw h =>
    have : good = true := hg (by simp [hne])
    subst this
    refine ⟨_, into_word hws hw h.endsWord hx, h, fun h' => ?_⟩
    simpa using h'

/-! ### the loops -/

section
variable {R : Type _} [Zero R] {num : List Char → Option R}

theorem read_loops {St : Nat → Option R → Stream → Prop} {v : Nat → R} {n dim : Nat} {s : Stream} (h0 : St 0 none s)
    (hs : ∀ k < n * dim, ∀ a s, St k a s → ∃ s', s.into num 0 a = (some (v k), s') ∧ St (k + 1) (some (v k)) s') :
    ∃ x : GeoState R, loop n (fun _ x => loop dim (fun j x => x.next num j) x) ⟨fun _ => [], none, s⟩ = .ok x ∧
      ∀ j < dim, x.vertices j = (List.range n).map fun i => v (i * dim + j) := by
  obtain ⟨x, h, -, hv⟩ := loop_total (n := n) (body := fun _ x => loop dim (fun j x => GeoState.next num j x) x)
    (s := ⟨fun _ => [], none, s⟩)
    (Inv := fun i x => St (i * dim) x.a x.file ∧ ∀ j < dim, x.vertices j = (List.range i).map fun i => v (i * dim + j))
    ⟨by simpa using h0, fun j _ => by simp⟩ (by
      intro i hi x ⟨hx, hv⟩
      obtain ⟨y, hy, y1, y2, y3⟩ := loop_total (n := dim) (body := fun j x => GeoState.next num j x) (s := x)
        (Inv := fun j y => St (i * dim + j) y.a y.file ∧
          (∀ j' < j, y.vertices j' = (List.range (i + 1)).map fun i => v (i * dim + j')) ∧
          ∀ j', j ≤ j' → y.vertices j' = x.vertices j')
        ⟨hx, fun _ h => absurd h (by omega), fun _ _ => rfl⟩ (by
          intro j hj y ⟨y1, y2, y3⟩
          have hk : i * dim + j < n * dim := by
            have := Nat.mul_le_mul_right dim (by omega : i + 1 ≤ n)
            rw [Nat.succ_mul] at this
            omega
          obtain ⟨f, hf, hf'⟩ := hs _ hk _ _ y1
          refine ⟨⟨fun k => if k = j then y.vertices j ++ [v (i * dim + j)] else y.vertices k,
            some (v (i * dim + j)), f⟩, by simp only [GeoState.next, hf], hf', ?_, ?_⟩
          · intro j' hj'
            by_cases e : j' = j
            · subst e
              simp only [if_true]
              rw [y3 j' le_rfl, hv j' hj, List.range_succ, List.map_append]
              rfl
            · simp only [if_neg e]
              exact y2 j' (by omega)
          · intro j' hj'
            simp only
            rw [if_neg (by omega)]
            exact y3 j' (by omega))
      exact ⟨y, hy, by rw [Nat.succ_mul]; exact y1, fun j hj => y2 j hj⟩)
  exact ⟨x, h, hv⟩

variable {int : List Char → Option Int} {chars tail : List Char} {n dim : Nat} {x : List R}

/-- The header of the file. -/
theorem read_header {n dim : Int} (h : IsGeometryFile int num chars n dim x tail) :
    ∃ (s : Stream) (items : List (List Char)), items.map num = x.map some ∧ s.Holds items tail ∧
      readGeometryFile int num (some chars) = (if dim < 0 then .error .abort else do
        let y ← loop n.toNat (fun _ x => loop dim.toNat (fun j x => x.next num j) x) (⟨fun _ => [], none, s⟩ : GeoState R)
        .ok ((List.range dim.toNat).map y.vertices)) := by
  obtain ⟨ws, wn, wd, text, items, rfl, hws, hwn, hn, hd, hW, hx⟩ := h
  have h1 : Stream.into int 0 ⟨ws ++ (wn ++ text), true⟩ none = (some n, ⟨text, !text.isEmpty⟩) :=
    into_word hws hwn hW.endsWord hn
  obtain ⟨s, h2, hs⟩ := into_holds (conv := int) (zero := 0) (s := ⟨text, !text.isEmpty⟩) (w := wd) (l := items)
    (tail := tail) ⟨hW, fun h => by simpa using h⟩ hd none
  refine ⟨s, items, hx, hs, ?_⟩
  simp only [readGeometryFile, h1, h2]

theorem read_values {St : Nat → Option R → Stream → Prop} {v : Nat → R} (h : IsGeometryFile int num chars n dim x tail)
    (h0 : ∀ s items, items.map num = x.map some → Stream.Holds s items tail → St 0 none s)
    (hs : ∀ k < n * dim, ∀ a s, St k a s → ∃ s', s.into num 0 a = (some (v k), s') ∧ St (k + 1) (some (v k)) s') :
    readGeometryFile int num (some chars) =
      .ok ((List.range dim).map fun j => (List.range n).map fun i => v (i * dim + j)) := by
  obtain ⟨s, items, hi, hS, e⟩ := read_header h
  obtain ⟨y, hy, hv⟩ := read_loops (h0 s items hi hS) hs
  rw [e, if_neg (by omega), Int.toNat_natCast, Int.toNat_natCast, hy, except_bind_ok]
  exact congrArg Except.ok (List.map_congr_left fun j hj => hv j (List.mem_range.1 hj))

/-- One extraction while there are numbers left. -/
theorem into_items {s : Stream} {items : List (List Char)} {k : Nat} (hk : k < x.length)
    (hi : items.map num = (x.drop k).map some) (h : s.Holds items tail) (a : Option R) :
    ∃ s' items', s.into num 0 a = (some (x.getD k 0), s') ∧ items'.map num = (x.drop (k + 1)).map some ∧
      s'.Holds items' tail := by
  rw [List.drop_eq_getElem_cons hk, List.map_cons] at hi
  cases items with
  | nil => exact (nomatch hi)
  | cons w items =>
    rw [List.map_cons, List.cons.injEq] at hi
    obtain ⟨s', e, hs⟩ := into_holds (conv := num) (zero := 0) h hi.1 a
    exact ⟨s', items, by rw [e, List.getD_eq_getElem?_getD, List.getElem?_eq_getElem hk]; rfl, hi.2, hs⟩

/-- **C60**: a file that holds (at least) the announced numbers is read point by point:
coordinate `j` of point `i` is number `i*dim+j`; what follows is ignored. -/
theorem C60_read (h : IsGeometryFile int num chars n dim x tail) (hx : n * dim ≤ x.length) :
    readGeometryFile int num (some chars) =
      .ok ((List.range dim).map fun j => (List.range n).map fun i => x.getD (i * dim + j) 0) := by
  refine read_values (v := fun k => x.getD k 0)
    (St := fun k _ s => ∃ items, items.map num = (x.drop k).map some ∧ Stream.Holds s items tail) h
    (fun s items hi hs => ⟨items, hi, hs⟩) ?_
  rintro k hk a s ⟨items, hi, hs⟩
  obtain ⟨s', items', e, hi', hs'⟩ := into_items (x := x) (by omega) hi hs a
  exact ⟨s', e, items', hi', hs'⟩

/-- **C60** (defect): a file with too few numbers (but at least one) is accepted; every missing
coordinate becomes the last number in the file.  (If nothing is missing the equation agrees
with `C60_read`.) -/
theorem C60_short (h : IsGeometryFile int num chars n dim x tail) (hne : x ≠ []) (ht : ∀ c ∈ tail, isBlank c = true) :
    readGeometryFile int num (some chars) =
      .ok ((List.range dim).map fun j => (List.range n).map fun i => x.getD (min (i * dim + j) (x.length - 1)) 0) := by
  have hpos : 0 < x.length := List.length_pos_iff.2 hne
  refine read_values (v := fun k => x.getD (min k (x.length - 1)) 0)
    (St := fun k a s => (k < x.length → ∃ items, items.map num = (x.drop k).map some ∧ Stream.Holds s items tail) ∧
      (x.length ≤ k → a = some (x.getD (x.length - 1) 0) ∧ s.Done)) h
    (fun s items hi hs => ⟨fun _ => ⟨items, hi, hs⟩, fun h => absurd h (by omega)⟩) ?_
  rintro k hk a s ⟨h1, h2⟩
  rcases Nat.lt_or_ge k x.length with hlt | hge
  · obtain ⟨items, hi, hs⟩ := h1 hlt
    obtain ⟨s', items', e, hi', hs'⟩ := into_items (x := x) hlt hi hs a
    have em : min k (x.length - 1) = k := by omega
    rw [em]
    refine ⟨s', e, fun _ => ⟨items', hi', hs'⟩, fun hl => ?_⟩
    obtain rfl : k = x.length - 1 := by omega
    refine ⟨rfl, ?_⟩
    rw [List.drop_eq_nil_of_le hl, List.map_nil, List.map_eq_nil_iff] at hi'
    subst hi'
    obtain ⟨hw, hg⟩ := hs'
    refine .inr ?_
    generalize s'.rest = r at hw
    cases hw with
    | nil => exact ht
  · obtain ⟨ha, hd⟩ := h2 hge
    obtain ⟨e1, e2⟩ := into_done (conv := num) (zero := 0) hd a
    have em : min k (x.length - 1) = x.length - 1 := by omega
    rw [em]
    exact ⟨_, Prod.ext (e1.trans ha) rfl, fun h => absurd h (by omega), fun _ => ⟨rfl, e2⟩⟩

/-- **C60**: without any number after the header an uninitialized variable is used. -/
theorem C60_no_numbers (h : IsGeometryFile int num chars n dim [] tail) (ht : ∀ c ∈ tail, isBlank c = true)
    (hn : 0 < n) (hd : 0 < dim) : readGeometryFile int num (some chars) = .error .ub := by
  obtain ⟨s, items, hi, hS, e⟩ := read_header h
  rw [List.map_nil, List.map_eq_nil_iff] at hi
  subst hi
  have hD : s.Done := by
    obtain ⟨hw, hg⟩ := hS
    refine .inr ?_
    generalize s.rest = r at hw
    cases hw with
    | nil => exact ht
  have e0 := (into_done (conv := num) (zero := 0) hD none).1
  have inner : ∀ d, loop (d + 1) (fun j x => GeoState.next num j x) (⟨fun _ => [], none, s⟩ : GeoState R) = .error .ub := by
    intro d
    induction d with
    | zero =>
      rw [loop_succ, loop_zero, except_bind_ok, GeoState.next]
      revert e0
      generalize Stream.into num 0 s none = q
      rintro e0
      obtain ⟨q1, q2⟩ := q
      simp only at e0
      subst e0
      rfl
    | succ d ih => rw [loop_succ, ih]; rfl
  have outer : ∀ m, loop (m + 1) (fun _ x => loop dim (fun j x => GeoState.next num j x) x)
      (⟨fun _ => [], none, s⟩ : GeoState R) = .error .ub := by
    intro m
    obtain ⟨d, rfl⟩ : ∃ d, dim = d + 1 := ⟨dim - 1, by omega⟩
    induction m with
    | zero => rw [loop_succ, loop_zero, except_bind_ok, inner]
    | succ m ih => rw [loop_succ, ih]; rfl
  obtain ⟨m, rfl⟩ : ∃ m, n = m + 1 := ⟨n - 1, by omega⟩
  rw [e, if_neg (by omega), Int.toNat_natCast, Int.toNat_natCast, outer]
  rfl

/-- **C60** (defect): a file that cannot be opened is not reported: uninitialized sizes are
used. -/
theorem C60_no_file : readGeometryFile int num none = .error .ub := by
  simp [readGeometryFile, Stream.into]

/-- **C60**: a negative number of dimensions ends the program. -/
theorem C60_negative {n dim : Int} (h : IsGeometryFile int num chars n dim x tail) (hd : dim < 0) :
    readGeometryFile int num (some chars) = .error .abort := by
  obtain ⟨s, items, -, -, e⟩ := read_header h
  rw [e, if_pos hd]

/-- **C60**: whatever the file, all coordinate lists that are returned have the same
length. -/
theorem C60_same_length {file : Option (List Char)} {vs : List (List R)} (h : readGeometryFile int num file = .ok vs) :
    ∃ n, ∀ p ∈ vs, p.length = n := by
  simp only [readGeometryFile] at h
  split at h
  · rename_i d n e1 e2
    split at h
    · exact (nomatch h)
    · simp only [except_bind_eq_ok] at h
      obtain ⟨y, hy, h⟩ := h
      cases Except.ok.inj h
      have := loop_inv (Inv := fun i (y : GeoState R) => ∀ j < d.toNat, (y.vertices j).length = i)
        (fun _ _ => rfl) (fun i _ a b ha hb => by
          have := loop_inv (Inv := fun j (y : GeoState R) => (∀ j' < j, (y.vertices j').length = i + 1) ∧
            ∀ j', j ≤ j' → j' < d.toNat → (y.vertices j').length = i)
            ⟨fun _ h => absurd h (by omega), fun j' _ hj => ha j' hj⟩ (fun j hj a b hab hb => by
              rw [GeoState.next] at hb
              split at hb
              · exact (nomatch hb)
              · cases Except.ok.inj hb
                refine ⟨fun j' hj' => ?_, fun j' hj' hd => ?_⟩
                · simp only
                  split
                  · rw [List.length_append, hab.2 j le_rfl hj]; rfl
                  · exact hab.1 j' (by omega)
                · simp only
                  rw [if_neg (by omega)]
                  exact hab.2 j' (by omega) hd) hb
          exact this.1) hy
      refine ⟨n.toNat, fun p hp => ?_⟩
      obtain ⟨j, hj, rfl⟩ := List.mem_map.1 hp
      exact this j (List.mem_range.1 hj)
  · exact (nomatch h)

end

/-! ### generated points -/

/-- **C60**: `get_sorted_random_vector(N)` returns the first `N` numbers of the generator in
non-decreasing order. -/
theorem C60_sorted {sort : (ℝ → ℝ → Bool) → List ℝ → List ℝ} (hsort : SortSpec sort) (draw : Nat → ℝ) (N : Nat) :
    (getSortedRandomVector sort draw N).length = N ∧
      (getSortedRandomVector sort draw N).Perm ((List.range N).map draw) ∧
      ∀ i j, i ≤ j → j < N →
        (getSortedRandomVector sort draw N).getD i 0 ≤ (getSortedRandomVector sort draw N).getD j 0 := by
  have hlt : StrictWeak fun a b : ℝ => decide (a < b) := by
    refine ⟨fun a => by simp, fun a b c h1 h2 => ?_, fun a b c h1 h2 h3 h4 => ?_⟩
    · simp only [decide_eq_true_eq] at h1 h2 ⊢
      exact h1.trans h2
    · simp only [decide_eq_false_iff_not, not_lt] at h1 h2 h3 h4 ⊢
      exact ⟨h3.trans h1, h2.trans h4⟩
  have hp := hsort.perm _ ((List.range N).map draw) hlt
  have hs := hsort.sorted _ ((List.range N).map draw) hlt
  have hl : (getSortedRandomVector sort draw N).length = N := by
    rw [getSortedRandomVector, hp.length_eq, List.length_map, List.length_range]
  refine ⟨hl, hp, fun i j hij hj => ?_⟩
  rcases Nat.eq_or_lt_of_le hij with rfl | hij
  · exact le_rfl
  · have := List.pairwise_iff_getElem.1 hs i j (by have := hl; rw [getSortedRandomVector] at this; omega)
      (by have := hl; rw [getSortedRandomVector] at this; omega) hij
    simp only [decide_eq_false_iff_not, not_lt] at this
    rw [List.getD_eq_getElem?_getD, List.getD_eq_getElem?_getD, List.getElem?_eq_getElem (by omega),
      List.getElem?_eq_getElem (by omega)]
    exact this

/-- **C60**: `get_non_negative_vector(N)` returns `0, 1, ..., N-1`. -/
theorem C60_non_negative (N : Nat) : (getNonNegativeVector N : List ℝ).length = N ∧
    ∀ i < N, (getNonNegativeVector N : List ℝ).getD i 0 = i := by
  refine ⟨by simp [getNonNegativeVector], fun i hi => ?_⟩
  rw [getNonNegativeVector, List.getD_eq_getElem?_getD, List.getElem?_map, List.getElem?_range hi]
  rfl

/-- Points without repetition are pairwise different. -/
theorem distinct_of_nodup {p : List ℝ} (h : p.Nodup) : DistinctPoints [p] 0 p.length := by
  intro i hi j hj hij
  refine ⟨p, by simp, fun e => hij ?_⟩
  rw [Nat.zero_add, Nat.zero_add, List.getD_eq_getElem?_getD, List.getD_eq_getElem?_getD, List.getElem?_eq_getElem hi,
    List.getElem?_eq_getElem hj] at e
  exact (List.Nodup.getElem_inj_iff h).1 e

/-- **C60**: on generated points (random ones, if no number was drawn twice) the Laplace and
Helmholtz matrices are symmetric positive definite. -/
theorem C60_generated_positive_definite {b : Builtin} (hb : b = .laplacend ∨ b = .helmholtznd)
    {sort : (ℝ → ℝ → Bool) → List ℝ → List ℝ} (hsort : SortSpec sort) {draw : Nat → ℝ} {N : Nat} {p : List ℝ}
    (hp : p = getNonNegativeVector N ∨
      p = getSortedRandomVector sort draw N ∧ ∀ i < N, ∀ j < N, draw i = draw j → i = j) :
    ∃ D, Dense.ofKernel (b.kernel [p]) N N 0 0 = .ok D ∧ D.rows = N ∧ D.cols = N ∧
      (∀ i < N, ∀ j < N, D.val i j = D.val j i) ∧
      ∀ a : Nat → ℝ, (∃ i < N, a i ≠ 0) → 0 < ∑ i ∈ range N, ∑ j ∈ range N, a i * D.val i j * a j := by
  have h : p.length = N ∧ p.Nodup := by
    rcases hp with rfl | ⟨rfl, hd⟩
    · refine ⟨(C60_non_negative N).1, ?_⟩
      exact List.nodup_range.map fun i j e => by exact_mod_cast e
    · obtain ⟨h1, h2, -⟩ := C60_sorted hsort draw N
      refine ⟨h1, h2.nodup_iff.2 ?_⟩
      exact List.nodup_range.map_on fun i hi j hj e => hd i (List.mem_range.1 hi) j (List.mem_range.1 hj) e
  exact C56_positive_definite hb (o := 0) (by simp [h.1]) (by rw [← h.1]; exact distinct_of_nodup h.2)

/-- **C60**: on the points of a complete file, if they are pairwise different, the Laplace
and Helmholtz matrices are symmetric positive definite. -/
theorem C60_file_positive_definite {b : Builtin} (hb : b = .laplacend ∨ b = .helmholtznd)
    {int : List Char → Option Int} {num : List Char → Option ℝ} {chars tail : List Char} {n dim : Nat} {x : List ℝ}
    (h : IsGeometryFile int num chars n dim x tail) (hx : n * dim ≤ x.length)
    (hd : ∀ i < n, ∀ j < n, i ≠ j → ∃ l < dim, x.getD (i * dim + l) 0 ≠ x.getD (j * dim + l) 0) :
    ∃ pts D, readGeometryFile int num (some chars) = .ok pts ∧
      Dense.ofKernel (b.kernel pts) n n 0 0 = .ok D ∧ D.rows = n ∧ D.cols = n ∧
      (∀ i < n, ∀ j < n, D.val i j = D.val j i) ∧
      ∀ a : Nat → ℝ, (∃ i < n, a i ≠ 0) → 0 < ∑ i ∈ range n, ∑ j ∈ range n, a i * D.val i j * a j := by
  obtain ⟨D, hD⟩ := C56_positive_definite hb (o := 0) (n := n)
    (x := (List.range dim).map fun j => (List.range n).map fun i => x.getD (i * dim + j) 0)
    (fun p hp => by
      obtain ⟨j, -, rfl⟩ := List.mem_map.1 hp
      simp) (fun i hi j hj hij => by
      obtain ⟨l, hl, hne⟩ := hd i hi j hj hij
      refine ⟨_, List.mem_map.2 ⟨l, List.mem_range.2 hl, rfl⟩, ?_⟩
      rw [Nat.zero_add, Nat.zero_add, List.getD_eq_getElem?_getD, List.getD_eq_getElem?_getD, List.getElem?_map,
        List.getElem?_map, List.getElem?_range hi, List.getElem?_range hj]
      exact hne)
  exact ⟨_, D, C60_read h hx, hD⟩

/-! ### the hypotheses can be met -/

section Examples

def intOf (w : List Char) : Option Int := (digits w).map Int.ofNat

theorem isWord_of_all {w : List Char} (h : (!w.isEmpty && w.all fun c => !isBlank c) = true) : IsWord w := by
  simp only [Bool.and_eq_true, Bool.not_eq_true', List.isEmpty_eq_false_iff, List.all_eq_true] at h
  exact ⟨h.1, fun c hc => by simpa using h.2 c hc⟩

/-- The text "2 2\n1 2\n3 4\n": two points in the plane. -/
theorem twoPoints : IsGeometryFile intOf digits ['2', ' ', '2', '\n', '1', ' ', '2', '\n', '3', ' ', '4', '\n'] 2 2
    [1, 2, 3, 4] ['\n'] := by
  refine ⟨[], ['2'], ['2'], _, [['1'], ['2'], ['3'], ['4']], rfl, by simp, isWord_of_all (by decide), by decide, by decide, ?_, by decide⟩
  refine .cons (ws := [' ']) (w := ['2']) (by simp) (by decide) (isWord_of_all (by decide)) (.cons (ws := ['\n']) (w := ['1']) (by simp) (by decide) (isWord_of_all (by decide))
    (.cons (ws := [' ']) (w := ['2']) (by simp) (by decide) (isWord_of_all (by decide)) (.cons (ws := ['\n']) (w := ['3']) (by simp) (by decide) (isWord_of_all (by decide))
    (.cons (ws := [' ']) (w := ['4']) (by simp) (by decide) (isWord_of_all (by decide)) (.nil (.inr ⟨'\n', [], rfl, by decide⟩))))))

/-- Coordinates are returned dimension by dimension. -/
example : readGeometryFile intOf digits (some ['2', ' ', '2', '\n', '1', ' ', '2', '\n', '3', ' ', '4', '\n']) =
    .ok [[1, 3], [2, 4]] := C60_read (n := 2) (dim := 2) twoPoints (by decide)

/-- The text "3 1\n7": two of three points on a line are missing. -/
theorem shortFile : IsGeometryFile intOf digits ['3', ' ', '1', '\n', '7'] 3 1 [7] [] := by
  refine ⟨[], ['3'], ['1'], _, [['7']], rfl, by simp, isWord_of_all (by decide), by decide, by decide, ?_, by decide⟩
  exact .cons (ws := [' ']) (w := ['1']) (by simp) (by decide) (isWord_of_all (by decide)) (.cons (ws := ['\n']) (w := ['7']) (by simp) (by decide) (isWord_of_all (by decide))
    (.nil (.inl rfl)))

example : readGeometryFile intOf digits (some ['3', ' ', '1', '\n', '7']) = .ok [[7, 7, 7]] :=
  C60_short (n := 3) (dim := 1) shortFile (by decide) (by simp)

/-- The generated points with a sorting routine that meets the specification. -/
example : (getSortedRandomVector (fun lt l => l.mergeSort fun a b => !lt b a) (fun i => (1 : ℝ) / (i + 1)) 5).length = 5 :=
  (C60_sorted mergeSort_sortSpec _ 5).1

end Examples

end Verif
