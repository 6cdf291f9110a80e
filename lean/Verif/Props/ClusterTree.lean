import Verif.Lemmas.ClusterTree

/-
C03, C04, C05 and the tree part of C06.
-/

namespace Verif
open ClusterTree

/-- C03: every entry of the root range lies in exactly one leaf, and every leaf
lies inside the root range, for every tree whose construction terminates and in
which every equal split is valid. -/
theorem C03_leaves_tile (rows cols : IndexRange) (br bc : Nat) (nleaf : Int) (fuel : Nat)
    (tr : ClusterTree) (h : build fuel true (rootInfo rows cols br bc nleaf) = .ok tr)
    (hbr : 1 ≤ br) (hbc : 1 ≤ bc) (hr : 0 ≤ rows.n) (hc : 0 ≤ cols.n) (hok : SplitsOk tr) :
    (∀ x y, rows.Has x → cols.Has y →
      ∃! p, ∃ s, tr.at? p = some (.leaf s) ∧ s.rows.Has x ∧ s.cols.Has y) ∧
    (∀ p s, tr.at? p = some (.leaf s) →
      (∀ x, s.rows.Has x → rows.Has x) ∧ (∀ y, s.cols.Has y → cols.Has y) ∧
      0 ≤ s.rows.n ∧ 0 ≤ s.cols.n) := by
  obtain ⟨h1, h2⟩ := tiling h hbr hbc hr hc hok
  refine ⟨h1, fun p s hp => ?_⟩
  obtain ⟨a, b, c, d⟩ := h2 p _ hp
  exact ⟨c, d, a, b⟩

/-- C03: which nodes are subdivided.  A leaf fits into the leaf size in both
directions (or the leaf size is 0) and is not the root; every other subdivided
node exceeds the leaf size in at least one direction. -/
theorem C03_leaf_sizes (rows cols : IndexRange) (br bc : Nat) (nleaf : Int) (fuel : Nat)
    (tr : ClusterTree) (h : build fuel true (rootInfo rows cols br bc nleaf) = .ok tr) :
    (∀ p s, tr.at? p = some (.leaf s) →
      p ≠ [] ∧ (nleaf = 0 ∨ (s.rows.n ≤ nleaf ∧ s.cols.n ≤ nleaf))) ∧
    (∀ p s ch, tr.at? p = some (.node s ch) →
      p = [] ∨ (nleaf ≠ 0 ∧ (nleaf < s.rows.n ∨ nleaf < s.cols.n))) := by
  have key : ∀ (fuel : Nat) (root : Bool) (t : NodeInfo) (tr : ClusterTree), t.nleaf = nleaf →
      build fuel root t = .ok tr →
      (∀ p s, tr.at? p = some (.leaf s) →
        (root = true → p ≠ []) ∧ (nleaf = 0 ∨ (s.rows.n ≤ nleaf ∧ s.cols.n ≤ nleaf))) ∧
      (∀ p s ch, tr.at? p = some (.node s ch) →
        (root = true ∧ p = []) ∨ (nleaf ≠ 0 ∧ (nleaf < s.rows.n ∨ nleaf < s.cols.n))) := by
    intro fuel
    induction fuel with
    | zero => intro root t tr _ h; cases h
    | succ f ih =>
      intro root t tr ht h
      rw [build] at h
      split at h
      · rename_i hc
        rw [except_bind_eq_ok] at h
        obtain ⟨ch, h1, h2⟩ := h
        cases Except.ok.inj h2
        have sub := fun i hi j hj => ih false (childInfo t i j) (ch i j) ht (collect2_ok h1 i hi j hj)
        constructor
        · intro p s hp
          cases p with
          | nil => cases hp
          | cons a p =>
            simp only [at?] at hp
            split at hp
            · rename_i hij
              exact ⟨fun _ => by simp, ((sub a.1 hij.1 a.2 hij.2).1 p s hp).2⟩
            · cases hp
        · intro p s ch' hp
          cases p with
          | nil =>
            simp only [at?, Option.some.injEq] at hp
            cases hp
            cases root with
            | true => exact Or.inl ⟨rfl, rfl⟩
            | false =>
              right
              simp only [isLeaf, Bool.false_or, Bool.not_eq_true', Bool.or_eq_false_iff, Bool.and_eq_false_iff,
                decide_eq_false_iff_not, ht] at hc
              exact ⟨hc.2, by omega⟩
          | cons a p =>
            simp only [at?] at hp
            split at hp
            · rename_i hij
              rcases (sub a.1 hij.1 a.2 hij.2).2 p s ch' hp with h | h
              · cases h.1
              · exact Or.inr h
            · cases hp
      · rename_i hc
        cases Except.ok.inj h
        simp only [Bool.or_eq_true, Bool.not_eq_true', not_or, Bool.not_eq_true, Bool.not_eq_false, isLeaf,
          Bool.and_eq_true, decide_eq_true_eq, ht] at hc
        constructor
        · intro p s hp
          cases p with
          | nil =>
            simp only [at?, Option.some.injEq, ClusterTree.leaf.injEq] at hp
            subst hp
            exact ⟨fun h => absurd (hc.1.symm.trans h) (by simp), by omega⟩
          | cons a p => cases hp
        · intro p s ch hp
          cases p with
          | nil => cases hp
          | cons a p => cases hp
  obtain ⟨h1, h2⟩ := key fuel true _ tr rfl h
  refine ⟨fun p s hp => ⟨(h1 p s hp).1 rfl, (h1 p s hp).2⟩, fun p s ch hp => ?_⟩
  rcases h2 p s ch hp with h | h
  · exact Or.inl h.2
  · exact Or.inr h

/-- C03 for one or two blocks per direction: no condition on the sizes. -/
theorem C03_leaves_tile_two_blocks (rows cols : IndexRange) (br bc : Nat) (nleaf : Int)
    (fuel : Nat) (tr : ClusterTree)
    (h : build fuel true (rootInfo rows cols br bc nleaf) = .ok tr)
    (hbr : br = 1 ∨ br = 2) (hbc : bc = 1 ∨ bc = 2) (hr : 0 ≤ rows.n) (hc : 0 ≤ cols.n) :
    ∀ x y, rows.Has x → cols.Has y →
      ∃! p, ∃ s, tr.at? p = some (.leaf s) ∧ s.rows.Has x ∧ s.cols.Has y :=
  (C03_leaves_tile rows cols br bc nleaf fuel tr h (by omega) (by omega) hr hc
    (splitsOk_of_le_two h (by simp [rootInfo]; omega) (by simp [rootInfo]; omega)
      (by simp [rootInfo]; omega) (by simp [rootInfo]; omega) hr hc)).1

/-- C03 for sizes `br^L * m` by `bc^L * m'` with `m, m' ≤ nleaf`. -/
theorem C03_leaves_tile_even (rs cs : Int) (br bc L m m' : Nat) (nleaf : Int) (fuel : Nat)
    (tr : ClusterTree) (hL : 1 ≤ L) (hm : (m : Int) ≤ nleaf) (hm' : (m' : Int) ≤ nleaf)
    (h : build fuel true
      (rootInfo ⟨rs, (br ^ L * m : Nat)⟩ ⟨cs, (bc ^ L * m' : Nat)⟩ br bc nleaf) = .ok tr)
    (hbr : 1 ≤ br) (hbc : 1 ≤ bc) :
    ∀ x y, (⟨rs, (br ^ L * m : Nat)⟩ : IndexRange).Has x →
      (⟨cs, (bc ^ L * m' : Nat)⟩ : IndexRange).Has y →
      ∃! p, ∃ s, tr.at? p = some (.leaf s) ∧ s.rows.Has x ∧ s.cols.Has y :=
  (C03_leaves_tile _ _ br bc nleaf fuel tr h hbr hbc (by simp only; omega) (by simp only; omega)
    (splitsOk_of_pow L h hbr hbc m m' (by omega) (by omega) (by simp [rootInfo])
      (by simp [rootInfo]) hm hm' (fun _ => hL))).1

/-- Without valid splits the claim fails: 5 rows in 4 blocks give a leaf that
leaves the root range. -/
theorem C03_needs_valid_splits :
    ∃ (tr : ClusterTree) (p : List (Nat × Nat)) (s : NodeInfo) (x : Int),
      build 2 true (rootInfo ⟨0, 5⟩ ⟨0, 5⟩ 4 4 5) = .ok tr ∧
      tr.at? p = some (.leaf s) ∧ s.rows.Has x ∧ ¬ (⟨0, 5⟩ : IndexRange).Has x := by
  obtain ⟨ch, hch⟩ := collect2_exists (m := 4) (n := 4)
    (f := fun i j => build 1 false (childInfo (rootInfo ⟨0, 5⟩ ⟨0, 5⟩ 4 4 5) i j)) (by
      intro i hi j hj
      have : isLeaf (childInfo (rootInfo ⟨0, 5⟩ ⟨0, 5⟩ 4 4 5) i j) = true := by
        revert i j; decide
      exact ⟨_, by rw [build]; simp only [this]; rfl⟩)
  have h2 : ch 2 0 = .leaf (childInfo (rootInfo ⟨0, 5⟩ ⟨0, 5⟩ 4 4 5) 2 0) := by
    have h := collect2_ok hch 2 (by omega) 0 (by omega)
    have e : build 1 false (childInfo (rootInfo ⟨0, 5⟩ ⟨0, 5⟩ 4 4 5) 2 0) =
      .ok (.leaf (childInfo (rootInfo ⟨0, 5⟩ ⟨0, 5⟩ 4 4 5) 2 0)) := rfl
    rw [e] at h
    exact (Except.ok.inj h).symm
  refine ⟨.node (rootInfo ⟨0, 5⟩ ⟨0, 5⟩ 4 4 5) ch, [(2, 0)],
    childInfo (rootInfo ⟨0, 5⟩ ⟨0, 5⟩ 4 4 5) 2 0, 5, ?_, ?_, ?_, ?_⟩
  · rw [build]; simp only [Bool.true_or, if_true]
    show (collect2 4 4 _ >>= _) = _
    rw [hch]; rfl
  · simp [at?, rootInfo] at h2 ⊢
    exact h2
  · unfold IndexRange.Has; decide
  · unfold IndexRange.Has; decide

-- hypotheses are met: 10 x 10, 3 x 3 blocks, leaf size 4
example : ∃ tr, build 2 true (rootInfo ⟨0, 10⟩ ⟨5, 10⟩ 3 3 4) = .ok tr :=
  ⟨_, rfl⟩

/-- C04: with at least two blocks per direction and a leaf size of at least one
construction terminates for all (also degenerate) ranges; no node is deeper than
`max 1 ⌈log_b (max rows cols)⌉` with `b = min br bc`. -/
theorem C04_build_terminates (rows cols : IndexRange) (br bc : Nat) (nleaf : Int)
    (hbr : 2 ≤ br) (hbc : 2 ≤ bc) (hl : 1 ≤ nleaf) :
    ∃ fuel tr, build fuel true (rootInfo rows cols br bc nleaf) = .ok tr ∧
      ∀ p s, tr.at? p = some s →
        p.length ≤ max 1 (Nat.clog (min br bc) (max rows.n.toNat cols.n.toNat)) := by
  have hle : ∀ n : Nat, n ≤ max rows.n.toNat cols.n.toNat → n ≤ (min br bc) ^
      (max 1 (Nat.clog (min br bc) (max rows.n.toNat cols.n.toNat))) := by
    intro n hn
    have hb : 1 < min br bc := by omega
    refine hn.trans ((Nat.le_pow_clog hb _).trans ?_)
    exact Nat.pow_le_pow_right (by omega) (Nat.le_max_right _ _)
  obtain ⟨tr, h1, h2⟩ := build_terminates
    (max 1 (Nat.clog (min br bc) (max rows.n.toNat cols.n.toNat))) true
    (rootInfo rows cols br bc nleaf) (min br bc) (by omega)
    (by simp [rootInfo]) (by simp [rootInfo]) hl
    (by simp only [rootInfo]; exact hle _ (le_max_left _ _))
    (by simp only [rootInfo]; exact hle _ (le_max_right _ _)) (by omega)
  exact ⟨_, tr, h1, h2⟩

/-- C04: hence at most `max(rows, cols)` levels below the root (at least one). -/
theorem C04_depth_le_size (rows cols : IndexRange) (br bc : Nat) (nleaf : Int)
    (hbr : 2 ≤ br) (hbc : 2 ≤ bc) (hl : 1 ≤ nleaf) (fuel : Nat) (tr : ClusterTree)
    (h : build fuel true (rootInfo rows cols br bc nleaf) = .ok tr)
    (p : List (Nat × Nat)) (s : ClusterTree) (hp : tr.at? p = some s) :
    p.length ≤ max 1 (max rows.n.toNat cols.n.toNat) := by
  obtain ⟨f2, tr2, h1, h2⟩ := C04_build_terminates rows cols br bc nleaf hbr hbc hl
  have e : tr = tr2 := by
    have a := build_mono h (Nat.le_max_left fuel f2)
    have b := build_mono h1 (Nat.le_max_right fuel f2)
    rw [a] at b; exact Except.ok.inj b
  subst e
  have hlen := h2 p s hp
  have : Nat.clog (min br bc) (max rows.n.toNat cols.n.toNat) ≤ max rows.n.toNat cols.n.toNat := by
    apply Nat.clog_le_of_le_pow
    exact (Nat.lt_pow_self (by omega)).le
  omega

/-- C04: leaf size 0 means one level of blocks, for any number of blocks. -/
theorem C04_build_nleaf_zero (rows cols : IndexRange) (br bc : Nat) :
    ∃ tr, build 2 true (rootInfo rows cols br bc 0) = .ok tr ∧
      ∀ p s, tr.at? p = some s → p.length ≤ 1 := by
  obtain ⟨ch, h1, h2⟩ := build_nleaf_zero (rootInfo rows cols br bc 0) rfl
  refine ⟨_, h1, ?_⟩
  intro p s hp
  cases p with
  | nil => simp
  | cons a p =>
    obtain ⟨i, j⟩ := a
    simp only [at?] at hp
    split at hp
    · rename_i hij
      rw [h2 i hij.1 j hij.2] at hp
      cases p with
      | nil => simp
      | cons a p => simp [at?] at hp
    · simp at hp

/-- C04, negative side: one block per direction and a matrix larger than a
(non-zero) leaf size: the recursion exceeds every depth. -/
theorem C04_single_block_diverges (rows cols : IndexRange) (nleaf : Int) (h0 : nleaf ≠ 0)
    (hbig : nleaf < rows.n ∨ nleaf < cols.n) (fuel : Nat) :
    build fuel true (rootInfo rows cols 1 1 nleaf) = .error .fuel :=
  build_diverges fuel true _ rfl rfl h0 hbig

example : ∃ fuel tr, build fuel true (rootInfo ⟨0, 1000⟩ ⟨0, 1000⟩ 2 2 7) = .ok tr :=
  let ⟨f, t, h, _⟩ := C04_build_terminates ⟨0, 1000⟩ ⟨0, 1000⟩ 2 2 7 (by omega) (by omega) (by omega)
  ⟨f, t, h⟩
example : (7 : Int) ≠ 0 ∧ ((7 : Int) < (⟨0, 8⟩ : IndexRange).n ∨ False) := by decide

/-- C05, numbering: the node reached from the root through child positions `p`
is on level `p.length`; its absolute position is the number with digits `p` in
base `br` / `bc`, hence inside the grid of that level, and different nodes of a
level have different positions. -/
theorem C05_positions (rows cols : IndexRange) (br bc : Nat) (nleaf : Int) (fuel : Nat)
    (tr : ClusterTree) (h : build fuel true (rootInfo rows cols br bc nleaf) = .ok tr) :
    (∀ p s, tr.at? p = some s →
      s.info.level = p.length ∧
      s.info.absRow = digits br (p.map Prod.fst) ∧ s.info.absCol = digits bc (p.map Prod.snd) ∧
      0 ≤ s.info.absRow ∧ s.info.absRow < (br : Int) ^ p.length ∧
      0 ≤ s.info.absCol ∧ s.info.absCol < (bc : Int) ^ p.length) ∧
    (∀ p q s s', tr.at? p = some s → tr.at? q = some s' → s.info.level = s'.info.level →
      s.info.absRow = s'.info.absRow → s.info.absCol = s'.info.absCol → p = q) := by
  have key : ∀ p s, tr.at? p = some s →
      s.info.level = p.length ∧
      s.info.absRow = digits br (p.map Prod.fst) ∧ s.info.absCol = digits bc (p.map Prod.snd) ∧
      (∀ d ∈ p.map Prod.fst, d < br) ∧ (∀ d ∈ p.map Prod.snd, d < bc) := by
    intro p s hp
    obtain ⟨h1, h2, h3, h4, h5, h6, h7, h8⟩ := at_positions h p s hp
    exact ⟨by simpa [rootInfo] using h4, by simpa [rootInfo] using h7,
      by simpa [rootInfo] using h8, h5, h6⟩
  constructor
  · intro p s hp
    obtain ⟨a, b, c, d, e⟩ := key p s hp
    have l1 := digits_lt br (p.map Prod.fst) d
    have l2 := digits_lt bc (p.map Prod.snd) e
    rw [List.length_map] at l1 l2
    refine ⟨a, b, c, by omega, ?_, by omega, ?_⟩
    · rw [b]; exact_mod_cast l1
    · rw [c]; exact_mod_cast l2
  · intro p q s s' hp hq hl hr hc
    obtain ⟨a, b, c, d, e⟩ := key p s hp
    obtain ⟨a', b', c', d', e'⟩ := key q s' hq
    have hlen : p.length = q.length := by omega
    have f1 := digits_inj br _ _ d d' (by simpa using hlen) (by omega)
    have f2 := digits_inj bc _ _ e e' (by simpa using hlen) (by omega)
    have : ∀ (p q : List (Nat × Nat)), p.map Prod.fst = q.map Prod.fst →
        p.map Prod.snd = q.map Prod.snd → p = q := by
      intro p
      induction p with
      | nil => intro q h1 _; cases q <;> simp_all
      | cons a p ih =>
        intro q h1 h2
        cases q with
        | nil => simp at h1
        | cons b q =>
          simp only [List.map_cons, List.cons.injEq] at h1 h2
          rw [Prod.ext h1.1 h2.1, ih q h1.2 h2.2]
    exact this p q f1 f2

/-- C05, parent and child: relative position and parent's absolute position
determine a child's absolute position and conversely. -/
theorem C05_parent_child (rows cols : IndexRange) (br bc : Nat) (nleaf : Int) (fuel : Nat)
    (tr : ClusterTree) (h : build fuel true (rootInfo rows cols br bc nleaf) = .ok tr)
    (p : List (Nat × Nat)) (i j : Nat) (par s : ClusterTree)
    (hpar : tr.at? p = some par) (hp : par.at? [(i, j)] = some s) :
    s.info.level = par.info.level + 1 ∧
    s.info.relRow = i ∧ s.info.relCol = j ∧
    s.info.absRow = par.info.absRow * br + s.info.relRow ∧
    s.info.absCol = par.info.absCol * bc + s.info.relCol ∧
    par.info.absRow = s.info.absRow / br ∧ s.info.relRow = s.info.absRow % br ∧
    par.info.absCol = s.info.absCol / bc ∧ s.info.relCol = s.info.absCol % bc := by
  have hsub : ∀ {fuel isRoot t tr}, build fuel isRoot t = .ok tr → ∀ p s, tr.at? p = some s →
      ∃ f r, build f r s.info = .ok s := by
    intro fuel isRoot t tr h p
    induction p generalizing fuel isRoot t tr with
    | nil =>
      intro s hs
      simp only [at?, Option.some.injEq] at hs
      subst hs
      exact ⟨fuel, isRoot, by rw [build_info h]; exact h⟩
    | cons a p ih =>
      intro s hs
      cases tr with
      | leaf => simp [at?] at hs
      | node t' ch =>
        obtain ⟨rfl, -, f, rfl, hch⟩ := build_node h
        simp only [at?] at hs
        split at hs
        · rename_i hij
          exact ih (hch _ hij.1 _ hij.2) s hs
        · simp at hs
  obtain ⟨f, r, hb⟩ := hsub h p par hpar
  obtain ⟨k1, k2, -⟩ := at_positions h p par hpar
  cases par with
  | leaf => simp [at?] at hp
  | node t ch =>
    obtain ⟨-, -, f', -, hch⟩ := build_node hb
    have einfo : (ClusterTree.node t ch).info = t := rfl
    rw [einfo] at hb hch k1 k2 ⊢
    simp only [at?] at hp
    split at hp
    · rename_i hij
      simp only [Option.some.injEq] at hp
      have e := build_info (hch i hij.1 j hij.2)
      rw [hp] at e
      rw [e]
      simp only [rootInfo] at k1 k2
      simp only [childInfo, k1, k2, true_and]
      have hi : i < br := by omega
      have hj : j < bc := by omega
      refine ⟨?_, ?_, ?_, ?_⟩
      · rw [add_comm, Int.add_mul_ediv_right _ _ (by omega), Int.ediv_eq_zero_of_lt (by omega)
          (by omega)]; omega
      · rw [add_comm, Int.add_mul_emod_self_right, Int.emod_eq_of_lt (by omega) (by omega)]
      · rw [add_comm, Int.add_mul_ediv_right _ _ (by omega), Int.ediv_eq_zero_of_lt (by omega)
          (by omega)]; omega
      · rw [add_comm, Int.add_mul_emod_self_right, Int.emod_eq_of_lt (by omega) (by omega)]
    · simp at hp

theorem mapM_range_ok {α : Type} (n : Nat) (f : Nat → Except Err α) (g : Nat → α)
    (h : ∀ i < n, f i = .ok (g i)) : (List.range n).mapM f = .ok ((List.range n).map g) := by
  have : ∀ l : List Nat, (∀ i ∈ l, f i = .ok (g i)) → l.mapM f = .ok (l.map g) := by
    intro l
    induction l with
    | nil => intro _; rfl
    | cons a l ih =>
      intro hl
      rw [List.mapM_cons, hl a (by simp), ih (fun i hi => hl i (by simp [hi]))]
      rfl
  exact this _ (fun i hi => h i (List.mem_range.1 hi))

/-- C05, block row and block column queries of the child `(i,j)` of a node return
exactly its siblings in row `i` / column `j`, in order. -/
theorem C05_block_row_col (t : NodeInfo) (ch : Nat → Nat → ClusterTree) (i j : Nat)
    (hi : i < t.br) (hj : j < t.bc) :
    getBlockRow (childInfo t i j) (some (.node t ch)) = .ok ((List.range t.bc).map (ch i)) ∧
    getBlockCol (childInfo t i j) (some (.node t ch)) =
      .ok ((List.range t.br).map (fun a => ch a j)) := by
  have key : ∀ a b : Nat, a < t.br → b < t.bc →
      ClusterTree.get (.node t ch) (a : Int) (b : Int) = .ok (ch a b) := by
    intro a b ha hb
    have h1 : (a : Int) * t.bc + b < t.br * t.bc := by
      have : ((a : Int) + 1) * t.bc ≤ t.br * t.bc :=
        Int.mul_le_mul_of_nonneg_right (by omega) (by omega)
      rw [Int.add_mul] at this
      omega
    have h2 : 0 ≤ (a : Int) * t.bc + b := by
      have := Int.mul_nonneg (a := (a : Int)) (b := (t.bc : Int)) (by omega) (by omega)
      omega
    simp only [ClusterTree.get, h1, h2, and_self, if_true]
    have e1 : ((a : Int) * t.bc + b) / t.bc = a := by
      rw [add_comm, Int.add_mul_ediv_right _ _ (by omega), Int.ediv_eq_zero_of_lt (by omega)
          (by omega)]; omega
    have e2 : ((a : Int) * t.bc + b) % t.bc = b := by
      rw [add_comm, Int.add_mul_emod_self_right, Int.emod_eq_of_lt (by omega) (by omega)]
    rw [e1, e2]; simp
  exact ⟨mapM_range_ok _ _ _ (fun b hb => key i b hi hb),
    mapM_range_ok _ _ _ (fun a ha => key a j ha hj)⟩

/-- C05: the queries on a root are undefined behaviour (null parent). -/
theorem C05_block_row_of_root (t : NodeInfo) :
    getBlockRow t none = .error .ub ∧ getBlockCol t none = .error .ub := ⟨rfl, rfl⟩

/-- C05: `dist_to_diag` is the number of block columns between the block and the
diagonal block of its block row. -/
theorem C05_dist_to_diag (t : NodeInfo) :
    0 ≤ distToDiag t ∧ (t.absCol = t.absRow + distToDiag t ∨ t.absRow = t.absCol + distToDiag t) ∧
    (distToDiag t = 0 ↔ t.absRow = t.absCol) := by
  unfold distToDiag; omega

example : getBlockRow (childInfo (rootInfo ⟨0, 4⟩ ⟨0, 4⟩ 2 2 2) 1 0)
    (some (.node (rootInfo ⟨0, 4⟩ ⟨0, 4⟩ 2 2 2) fun i j =>
      .leaf (childInfo (rootInfo ⟨0, 4⟩ ⟨0, 4⟩ 2 2 2) i j))) =
    .ok [.leaf (childInfo (rootInfo ⟨0, 4⟩ ⟨0, 4⟩ 2 2 2) 1 0),
         .leaf (childInfo (rootInfo ⟨0, 4⟩ ⟨0, 4⟩ 2 2 2) 1 1)] :=
  (C05_block_row_col _ _ 1 0 (by decide) (by decide)).1

end Verif
