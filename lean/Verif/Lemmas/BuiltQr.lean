import Verif.Spec.Mgs
import Verif.Lemmas.Blr

/-
Structure of matrices constructed on sizes that divide evenly down to the leaves, as
block Gram-Schmidt QR needs it.
-/

namespace Verif
open Finset

variable {R : Type} {K : Type} [Field K] [LinearOrder K]

namespace ClusterTree

/-- A node `k` levels below the root of the cluster tree over `n0 * b^L` rows and columns. -/
structure UniformNode (n0 L b k : Nat) (t : NodeInfo) : Prop where
  br : t.br = b
  bc : t.bc = b
  nleaf : t.nleaf = n0
  level : k ≤ L
  row : ∃ i < b ^ k, t.absRow = (i : Nat) ∧ t.rows = ⟨((i * (n0 * b ^ (L - k)) : Nat) : Int), ((n0 * b ^ (L - k) : Nat) : Int)⟩
  col : ∃ j < b ^ k, t.absCol = (j : Nat) ∧ t.cols = ⟨((j * (n0 * b ^ (L - k)) : Nat) : Int), ((n0 * b ^ (L - k) : Nat) : Int)⟩

variable {n0 L b k : Nat} {t : NodeInfo}

theorem UniformNode.rowsN (h : UniformNode n0 L b k t) : t.rows.n = ((n0 * b ^ (L - k) : Nat) : Int) := by
  obtain ⟨i, -, -, e⟩ := h.row
  rw [e]

theorem UniformNode.colsN (h : UniformNode n0 L b k t) : t.cols.n = ((n0 * b ^ (L - k) : Nat) : Int) := by
  obtain ⟨i, -, -, e⟩ := h.col
  rw [e]

theorem splitChild_even {s c b i : Nat} (hi : i < b) :
    (⟨(s : Int), ((c * b : Nat) : Int)⟩ : IndexRange).splitChild b i = ⟨((s + c * i : Nat) : Int), (c : Int)⟩ := by
  have e : Int.tdiv (((c * b : Nat) : Int) + b - 1) b = c := by
    have h0 : (0 : Int) ≤ ((c * b : Nat) : Int) := Int.natCast_nonneg _
    rw [Int.tdiv_eq_ediv_of_nonneg (by omega)]
    rw [show ((c * b : Nat) : Int) + b - 1 = (b - 1) + c * b by push_cast; ring, Int.add_mul_ediv_right _ _ (by omega),
      Int.ediv_eq_zero_of_lt (by omega) (by omega), zero_add]
  simp only [IndexRange.splitChild, e]
  congr 1
  split
  · push_cast
    ring
  · rfl

theorem UniformNode.child (h : UniformNode n0 L b k t) (hk : k < L) {i j : Nat} (hi : i < b) (hj : j < b) :
    UniformNode n0 L b (k + 1) (childInfo t i j) := by
  have key : ∀ {x u : Nat}, x < b ^ k → u < b → x * b + u < b ^ (k + 1) ∧
      (⟨((x * (n0 * b ^ (L - k)) : Nat) : Int), ((n0 * b ^ (L - k) : Nat) : Int)⟩ : IndexRange).splitChild b u =
        ⟨(((x * b + u) * (n0 * b ^ (L - (k + 1))) : Nat) : Int), ((n0 * b ^ (L - (k + 1)) : Nat) : Int)⟩ := by
    intro x u hx hu
    have e : n0 * b ^ (L - k) = n0 * b ^ (L - (k + 1)) * b := by
      rw [show L - k = L - (k + 1) + 1 by omega, pow_succ, mul_assoc]
    refine ⟨?_, ?_⟩
    · rw [pow_succ]
      exact mul_add_lt hx hu
    · rw [e, splitChild_even hu]
      congr 2
      ring
  obtain ⟨x, hx, e1, e2⟩ := h.row
  obtain ⟨y, hy, e3, e4⟩ := h.col
  refine ⟨h.br, h.bc, h.nleaf, hk, ⟨x * b + i, (key hx hi).1, ?_, ?_⟩, ⟨y * b + j, (key hy hj).1, ?_, ?_⟩⟩
  · simp only [childInfo, e1, h.br]
    push_cast
    rfl
  · simp only [childInfo, e2, h.br]
    exact (key hx hi).2
  · simp only [childInfo, e3, h.bc]
    push_cast
    rfl
  · simp only [childInfo, e4, h.bc]
    exact (key hy hj).2

theorem uniform_root (n0 L b : Nat) :
    UniformNode n0 L b 0 (rootInfo ⟨0, ((n0 * b ^ L : Nat) : Int)⟩ ⟨0, ((n0 * b ^ L : Nat) : Int)⟩ b b n0) :=
  ⟨rfl, rfl, rfl, Nat.zero_le _, ⟨0, by simp, rfl, by simp [rootInfo]⟩, ⟨0, by simp, rfl, by simp [rootInfo]⟩⟩

theorem UniformNode.leaf_iff (h : UniformNode n0 L b k t) (h0 : 1 ≤ n0) (hb : 2 ≤ b) : isLeaf t = true ↔ k = L := by
  simp only [isLeaf, h.rowsN, h.colsN, h.nleaf, Bool.or_eq_true, Bool.and_eq_true, decide_eq_true_eq, and_self]
  have := h.level
  constructor
  · intro hh
    by_contra hne
    have h1 : b ^ 1 ≤ b ^ (L - k) := Nat.pow_le_pow_right (by omega) (by omega)
    rw [pow_one] at h1
    have h2 : n0 * 2 ≤ n0 * b ^ (L - k) := Nat.mul_le_mul_left _ (by omega)
    omega
  · rintro rfl
    left
    simp

theorem UniformNode.inside (h : UniformNode n0 L b k t) :
    ∃ r c m : Nat, t.rows = ⟨(r : Int), (m : Int)⟩ ∧ t.cols = ⟨(c : Int), (m : Int)⟩ ∧ m = n0 * b ^ (L - k) ∧
      r + m ≤ n0 * b ^ L ∧ c + m ≤ n0 * b ^ L := by
  obtain ⟨x, hx, -, e2⟩ := h.row
  obtain ⟨y, hy, -, e4⟩ := h.col
  have hl := h.level
  have key : ∀ {x : Nat}, x < b ^ k → x * (n0 * b ^ (L - k)) + n0 * b ^ (L - k) ≤ n0 * b ^ L := by
    intro x hx
    calc x * (n0 * b ^ (L - k)) + n0 * b ^ (L - k) = (x + 1) * (n0 * b ^ (L - k)) := by ring
      _ ≤ b ^ k * (n0 * b ^ (L - k)) := Nat.mul_le_mul_right _ hx
      _ = n0 * (b ^ k * b ^ (L - k)) := by ring
      _ = n0 * b ^ L := by rw [← pow_add, show k + (L - k) = L by omega]
  exact ⟨_, _, _, e2, e4, rfl, key hx, key hy⟩

theorem uniform_build (h0 : 1 ≤ n0) (hb : 2 ≤ b) (h : UniformNode n0 L b k t) {isRoot : Bool}
    (hr : isRoot = true → k < L) {fuel : Nat} (hf : L - k < fuel) : ∃ tr, build fuel isRoot t = .ok tr := by
  induction fuel generalizing k t isRoot with
  | zero => omega
  | succ fuel ih =>
    rw [build]
    by_cases hc : (isRoot || !isLeaf t) = true
    · have hk : k < L := by
        cases isRoot with
        | true => exact hr rfl
        | false =>
          have := h.leaf_iff h0 hb
          have hl := h.level
          simp only [Bool.false_or, Bool.not_eq_true'] at hc
          rw [hc] at this
          simp only [Bool.false_eq_true, false_iff] at this
          omega
      obtain ⟨g, hg⟩ := collect2_exists (m := t.br) (n := t.bc) (f := fun i j => build fuel false (childInfo t i j))
        (fun i hi j hj => ih (h.child hk (by rwa [h.br] at hi) (by rwa [h.bc] at hj)) (fun h => (nomatch h)) (by omega))
      rw [if_pos hc, hg]
      exact ⟨_, rfl⟩
    · rw [if_neg hc]
      exact ⟨_, rfl⟩

/-- The constructor on such sizes returns; what is compressed are the admissible blocks. -/
theorem uniform_toMat (h0 : 1 ≤ n0) (hb : 2 ≤ b) {a : Admis K} {fill : FillFn R}
    {compress : Dense R → Except Err (LowRank R)} {Q : LowRank R → Prop}
    (hadm : ∀ t, ∃ x, isAdmissible a t = .ok x)
    (hfill : ∀ k t, UniformNode n0 L b k t → ∃ d, fill t.rows t.cols = .ok d)
    (hc : ∀ k t d, UniformNode n0 L b k t → isAdmissible a t = .ok true → fill t.rows t.cols = .ok d →
      ∃ l, compress d = .ok l ∧ Q l)
    {fuel : Nat} {isRoot : Bool} {ch : Nat → Nat → ClusterTree} (h : UniformNode n0 L b k t) (hk : k < L)
    (hbu : build fuel isRoot t = .ok (.node t ch)) :
    ∃ M, toMat a fill compress (.node t ch) = .ok M ∧ M.All Q := by
  induction fuel generalizing k t isRoot ch with
  | zero => simp [build] at hbu
  | succ fu ih =>
    obtain ⟨-, -, f', hf', hch⟩ := build_node hbu
    obtain rfl : f' = fu := by omega
    have key : ∀ i < t.br, ∀ j < t.bc, ∃ X, childBlock a fill compress (ch i j) = .ok X ∧ X.All Q := by
      intro i hi j hj
      have u := h.child hk (by rwa [h.br] at hi) (by rwa [h.bc] at hj)
      have hb1 := hch i hi j hj
      obtain ⟨adm, ha⟩ := hadm (childInfo t i j)
      obtain ⟨d, hd⟩ := hfill _ _ u
      rw [childBlock, build_info hb1, ha, hd]
      cases adm with
      | true =>
        obtain ⟨l, hl, q⟩ := hc _ _ _ u ha hd
        exact ⟨.lowRank l, by simp only [except_bind_ok, if_true, hl], q⟩
      | false =>
        by_cases hl : isLeaf (childInfo t i j) = true
        · exact ⟨.dense d, by simp only [except_bind_ok, hl, if_true, Bool.false_eq_true, if_false], trivial⟩
        · cases hx : ch i j with
          | leaf s =>
            rw [hx] at hb1
            exact absurd (build_leaf hb1).2.2 hl
          | node s ch' =>
            rw [hx] at hb1
            obtain rfl := (build_node hb1).1
            have hk' : k + 1 < L := by
              have := mt (u.leaf_iff h0 hb).2 hl
              omega
            obtain ⟨M, hM, q⟩ := ih u hk' hb1
            refine ⟨M, ?_, q⟩
            simp only [except_bind_ok, Bool.false_eq_true, if_false, if_neg hl, hM]
    obtain ⟨M, hM⟩ := toMat_node_exists (fun i hi j hj => by
      rw [build_info (hch i hi j hj)]; simp [childInfo]) (fun i hi j hj => (key i hi j hj).imp fun _ h => h.1)
    refine ⟨M, hM, ?_⟩
    obtain ⟨f, blk, -, rfl, hc'⟩ := toMat_level hbu hM
    intro i hi j hj
    obtain ⟨X, hX, q⟩ := key i hi j hj
    rw [(hc' i hi j hj).2] at hX
    cases Except.ok.inj hX
    exact q

/-- Where nothing is admissible, the compression does not matter. -/
theorem uniform_never (h0 : 1 ≤ n0) (hb : 2 ≤ b) {a : Admis K} {fill : FillFn R}
    {c1 c2 : Dense R → Except Err (LowRank R)}
    (hadm : ∀ k t, UniformNode n0 L b k t → isAdmissible a t = .ok false)
    {fuel : Nat} {isRoot : Bool} {ch : Nat → Nat → ClusterTree} (h : UniformNode n0 L b k t) (hk : k < L)
    (hbu : build fuel isRoot t = .ok (.node t ch)) :
    toMat a fill c1 (.node t ch) = toMat a fill c2 (.node t ch) := by
  induction fuel generalizing k t isRoot ch with
  | zero => simp [build] at hbu
  | succ fu ih =>
    obtain ⟨-, -, f', hf', hch⟩ := build_node hbu
    obtain rfl : f' = fu := by omega
    rw [toMat, toMat]
    congr 1
    apply loop_congr
    intro i hi s
    apply loop_congr
    intro j hj s
    have u := h.child hk (by rwa [h.br] at hi) (by rwa [h.bc] at hj)
    have hb1 := hch i hi j hj
    rw [build_info hb1, hadm _ _ u]
    simp only [except_bind_ok, Bool.false_eq_true, if_false]
    by_cases hl : isLeaf (childInfo t i j) = true
    · simp only [hl, if_true]
    · simp only [if_neg hl]
      cases hx : ch i j with
      | leaf s =>
        rw [hx] at hb1
        exact absurd (build_leaf hb1).2.2 hl
      | node s ch' =>
        rw [hx] at hb1
        obtain rfl := (build_node hb1).1
        have hk' : k + 1 < L := by
          have := mt (u.leaf_iff h0 hb).2 hl
          omega
        rw [ih u hk' hb1]

theorem position_never {admis : Int} (ha : ((b ^ L : Nat) : Int) ≤ admis + 1) (hb : 2 ≤ b) :
    ∀ k t, UniformNode n0 L b k t → isAdmissible (Admis.position admis : Admis K) t = .ok false := by
  intro k t h
  obtain ⟨i, hi, e1, -⟩ := h.row
  obtain ⟨j, hj, e2, -⟩ := h.col
  have hp : b ^ k ≤ b ^ L := Nat.pow_le_pow_right (by omega) h.level
  simp only [isAdmissible, distToDiag, e1, e2]
  rw [decide_eq_false (p := admis < _) (by omega), Bool.and_false]

/-! ### block columns -/

section
variable {a : Admis K} {fill : FillFn R} {compress : Dense R → Except Err (LowRank R)}
  (hfill : ∀ rows cols d, fill rows cols = .ok d → (d.rows : Int) = rows.n ∧ (d.cols : Int) = cols.n)
  (h0 : 1 ≤ n0) (hb : 2 ≤ b) (hd : DiagNever a)
include h0 hb hd

/-- A diagonal block of the tree is dense at the last level and subdivided above. -/
theorem uniform_diag {f : Nat} {d : NodeInfo} {D : ClusterTree} {X : Mat R} (u : UniformNode n0 L b k d)
    (hD : build f false d = .ok D) (hX : childBlock a fill compress D = .ok X)
    (dr : d.rows = d.cols) (da : d.absRow = d.absCol) :
    (k = L ∧ ∃ x, fill d.rows d.cols = .ok x ∧ X = .dense x) ∨
    (k < L ∧ ∃ (f' : Nat) (ch : Nat → Nat → ClusterTree) (blk : Nat → Nat → Mat R), X = .hier b b blk ∧ ∀ i < b, ∀ j < b,
      build f' false (childInfo d i j) = .ok (ch i j) ∧ childBlock a fill compress (ch i j) = .ok (blk i j)) := by
  have hl := u.level
  rcases childBlock_cases hD hX with ⟨_, _, h, -⟩ | ⟨x, -, h, hx, e⟩ | ⟨ch, -, h, e, hM⟩
  · exact absurd h (hd d dr da)
  · exact Or.inl ⟨(u.leaf_iff h0 hb).1 h, x, hx, e⟩
  · refine Or.inr ⟨?_, ?_⟩
    · have := mt (u.leaf_iff h0 hb).2 (by rw [h]; simp)
      omega
    · rw [e] at hD
      obtain ⟨f', blk, -, e', hc⟩ := toMat_level hD hM
      rw [u.br, u.bc] at e' hc
      exact ⟨f', ch, blk, e', hc⟩

theorem uniform_fits {f f' : Nat} {d t : NodeInfo} {D B : ClusterTree} {X Y : Mat R} (ud : UniformNode n0 L b k d)
    (ut : UniformNode n0 L b k t) (hD : build f false d = .ok D) (hB : build f' false t = .ok B)
    (hX : childBlock a fill compress D = .ok X) (hY : childBlock a fill compress B = .ok Y)
    (dr : d.rows = d.cols) (da : d.absRow = d.absCol) : Mat.ColFits X Y := by
  induction f' generalizing k f d t D B X Y with
  | zero => simp [build] at hB
  | succ f' ih =>
    rcases uniform_diag h0 hb hd ud hD hX dr da with ⟨hk, x, -, rfl⟩ | ⟨hk, fD, chD, A, rfl, hA⟩
    · rcases childBlock_cases hB hY with ⟨_, _, -, -, -, rfl⟩ | ⟨_, -, -, -, rfl⟩ | ⟨_, -, h, -⟩
      · trivial
      · trivial
      · rw [(ut.leaf_iff h0 hb).2 hk] at h
        cases h
    · rcases childBlock_cases hB hY with ⟨_, _, -, -, -, rfl⟩ | ⟨_, -, -, -, rfl⟩ | ⟨ch, -, -, rfl, hM⟩
      · trivial
      · trivial
      · obtain ⟨fB, Z, hfB, rfl, hZ⟩ := toMat_level hB hM
        obtain rfl : f' = fB := by omega
        rw [ut.br, ut.bc] at hZ ⊢
        refine ⟨rfl, rfl, fun i hi c hc => ?_⟩
        obtain ⟨b1, c1⟩ := hA c hc c hc
        obtain ⟨b2, c2⟩ := hZ i hi c hc
        exact ih (ud.child hk hc hc) (ut.child hk hi hc) b1 b2 c1 c2 (by simp only [childInfo, dr, ud.br, ud.bc])
          (by simp only [childInfo, da, ud.br, ud.bc])

include hfill

theorem uniform_full {f : Nat} {d : NodeInfo} {D : ClusterTree} {X : Mat R} (ud : UniformNode n0 L b k d)
    (hD : build f false d = .ok D) (hX : childBlock a fill compress D = .ok X)
    (dr : d.rows = d.cols) (da : d.absRow = d.absCol) : Mat.ColFull X X := by
  induction hn : L - k generalizing k f d D X with
  | zero =>
    rcases uniform_diag h0 hb hd ud hD hX dr da with ⟨hk, x, hx, rfl⟩ | ⟨hk, -⟩
    · have := hfill _ _ _ hx
      rw [dr] at this
      show x.cols ≤ x.rows
      omega
    · omega
  | succ n ih =>
    rcases uniform_diag h0 hb hd ud hD hX dr da with ⟨hk, -⟩ | ⟨hk, fD, chD, A, rfl, hA⟩
    · omega
    · refine ⟨rfl, rfl, fun c hc => ⟨c, hc, ?_⟩⟩
      obtain ⟨b1, c1⟩ := hA c hc c hc
      exact ih (ud.child hk hc hc) b1 c1 (by simp only [childInfo, dr, ud.br, ud.bc])
        (by simp only [childInfo, da, ud.br, ud.bc]) (by omega)

/-- All block columns of a matrix constructed on such sizes can be processed together with
its diagonal blocks. -/
theorem uniform_mgs {f : Nat} {isRoot : Bool} {d : NodeInfo} {ch : Nat → Nat → ClusterTree} {M : Mat R}
    (ud : UniformNode n0 L b k d) (hk : k < L) (hD : build f isRoot d = .ok (.node d ch))
    (hM : toMat a fill compress (.node d ch) = .ok M) (dr : d.rows = d.cols) (da : d.absRow = d.absCol) :
    M.ColFits M ∧ M.ColFull M := by
  obtain ⟨f', blk, -, rfl, hc⟩ := toMat_level hD hM
  rw [ud.br, ud.bc] at hc ⊢
  have e1 : ∀ c : Nat, (childInfo d c c).rows = (childInfo d c c).cols := fun c => by
    simp only [childInfo, dr, ud.br, ud.bc]
  have e2 : ∀ c : Nat, (childInfo d c c).absRow = (childInfo d c c).absCol := fun c => by
    simp only [childInfo, da, ud.br, ud.bc]
  refine ⟨⟨rfl, rfl, fun i hi c hc' => ?_⟩, rfl, rfl, fun c hc' => ⟨c, hc', ?_⟩⟩
  · obtain ⟨b1, c1⟩ := hc c hc' c hc'
    obtain ⟨b2, c2⟩ := hc i hi c hc'
    exact uniform_fits h0 hb hd (ud.child hk hc' hc') (ud.child hk hi hc') b1 b2 c1 c2 (e1 c) (e2 c)
  · obtain ⟨b1, c1⟩ := hc c hc' c hc'
    exact uniform_full hfill h0 hb hd (ud.child hk hc' hc') b1 c1 (e1 c) (e2 c)

end

end ClusterTree
end Verif
