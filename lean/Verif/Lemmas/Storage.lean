import Verif.Props.Construct
import Verif.Props.MatBasic

/-
Number of elements stored by a matrix built with position-based admissibility: sums
over the near nodes of a cluster tree.
-/

namespace Verif
open Finset Classical

/-! ### clusters near a cluster -/

/-- `|x - y| ≤ a`. -/
def Near (a : Int) (x y : Int) : Prop := ((x - y).natAbs : Int) ≤ a

/-- Number of clusters near `x` among the descendants, `h` levels down, of cluster
`c`. -/
noncomputable def nearCount (a : Int) (b h : Nat) (x c : Int) : Nat :=
  ∑ j ∈ range (b ^ h), if Near a x (c * (b : Int) ^ h + j) then 1 else 0

theorem sum_range_mul' {M : Type} [AddCommMonoid M] (b m : Nat) (f : Nat → M) :
    ∑ k ∈ range b, ∑ j ∈ range m, f (k * m + j) = ∑ x ∈ range (b * m), f x := by
  induction b with
  | zero => simp
  | succ b ih => rw [sum_range_succ, ih, Nat.succ_mul, sum_range_add]

theorem nearCount_succ (a : Int) (b h : Nat) (x c : Int) :
    ∑ k ∈ range b, nearCount a b h x (c * b + k) = nearCount a b (h + 1) x c := by
  have e := sum_range_mul' b (b ^ h)
    (fun j => if Near a x (c * (b : Int) ^ (h + 1) + (j : Int)) then 1 else 0)
  rw [← pow_succ'] at e
  simp only [nearCount]
  rw [← e]
  refine sum_congr rfl fun k _ => sum_congr rfl fun j _ => ?_
  have : (c * (b : Int) + k) * (b : Int) ^ h + j = c * (b : Int) ^ (h + 1) + ((k * b ^ h + j : Nat) : Int) := by
    push_cast; ring
  rw [this]

theorem nearCount_le {a : Int} (ha : 0 ≤ a) (b h : Nat) (x c : Int) :
    nearCount a b h x c ≤ 2 * a.toNat + 1 := by
  unfold nearCount
  rw [← card_filter]
  have : ((range (b ^ h)).filter (fun j : Nat => Near a x (c * (b : Int) ^ h + j))).card ≤
      (Icc (x - a) (x + a)).card := by
    refine card_le_card_of_injOn (fun j : Nat => c * (b : Int) ^ h + j) ?_ ?_
    · intro j hj
      have hj := (mem_filter.1 hj).2
      unfold Near at hj
      simp only [coe_Icc, Set.mem_Icc]
      omega
    · intro i _ j _ e
      simpa using e
  rw [Int.card_Icc] at this
  omega

/-! ### weighted sizes of descendants -/

/-- The parts of the range have the size of the range together. -/
def PartsOk (b : Nat) (r : IndexRange) : Prop :=
  0 ≤ r.n ∧ (∀ k < b, 0 ≤ (r.splitChild b (k : Nat)).n) ∧
    ∑ k ∈ range b, (r.splitChild b (k : Nat)).n.toNat = r.n.toNat

/-- Sum of the sizes of the ranges `h` levels down, weighted by their position. -/
noncomputable def weightSum (b : Nat) : Nat → IndexRange → Int → (Int → Nat) → Nat
  | 0, r, x, g => r.n.toNat * g x
  | h + 1, r, x, g => if PartsOk b r then
      ∑ k ∈ range b, weightSum b h (r.splitChild b (k : Nat)) (x * b + k) g else 0

theorem weightSum_le {b : Nat} {G : Nat} {g : Int → Nat} (hg : ∀ x, g x ≤ G) (h : Nat) (r : IndexRange)
    (x : Int) : weightSum b h r x g ≤ G * r.n.toNat := by
  induction h generalizing r x with
  | zero => rw [weightSum, Nat.mul_comm]; exact Nat.mul_le_mul_right _ (hg x)
  | succ h ih =>
    rw [weightSum]
    split
    · rename_i hp
      rw [← hp.2.2, mul_sum]
      exact sum_le_sum fun k _ => ih _ _
    · exact Nat.zero_le _

theorem weightSum_sum (b h : Nat) (r : IndexRange) (x : Int) (n : Nat) (g : Nat → Int → Nat) :
    ∑ k ∈ range n, weightSum b h r x (g k) = weightSum b h r x (fun y => ∑ k ∈ range n, g k y) := by
  induction h generalizing r x with
  | zero => simp only [weightSum, mul_sum]
  | succ h ih =>
    simp only [weightSum]
    split
    · rw [sum_comm]
      exact sum_congr rfl fun k _ => ih _ _
    · simp

/-- Sum of the numbers of rows of the near nodes `h` levels down. -/
noncomputable def nearRows (a : Int) (b : Nat) : Nat → NodeInfo → Nat
  | 0, t => if Near a t.absRow t.absCol then t.rows.n.toNat else 0
  | h + 1, t => if PartsOk b t.rows ∧ PartsOk b t.cols then
      ∑ k ∈ range b, ∑ l ∈ range b, nearRows a b h (ClusterTree.childInfo t k l) else 0

/-- The node with rows and columns exchanged. -/
def NodeInfo.flip (t : NodeInfo) : NodeInfo :=
  { rows := t.cols, cols := t.rows, br := t.bc, bc := t.br, nleaf := t.nleaf, level := t.level,
    relRow := t.relCol, relCol := t.relRow, absRow := t.absCol, absCol := t.absRow }

/-- Sum of the numbers of columns of the near nodes `h` levels down. -/
noncomputable def nearCols (a : Int) (b h : Nat) (t : NodeInfo) : Nat := nearRows a b h t.flip

theorem nearCols_zero (a : Int) (b : Nat) (t : NodeInfo) :
    nearCols a b 0 t = if Near a t.absRow t.absCol then t.cols.n.toNat else 0 := by
  have : Near a t.absCol t.absRow ↔ Near a t.absRow t.absCol := by unfold Near; omega
  simp only [nearCols, nearRows, NodeInfo.flip, this]

theorem nearCols_succ (a : Int) (b h : Nat) (t : NodeInfo) :
    nearCols a b (h + 1) t = if PartsOk b t.rows ∧ PartsOk b t.cols then
      ∑ k ∈ range b, ∑ l ∈ range b, nearCols a b h (ClusterTree.childInfo t k l) else 0 := by
  rw [nearCols, nearRows]
  have : PartsOk b t.flip.rows ∧ PartsOk b t.flip.cols ↔ PartsOk b t.rows ∧ PartsOk b t.cols := And.comm
  simp only [this]
  split
  · rw [sum_comm]
    rfl
  · rfl

theorem nearRows_le_weightSum {a : Int} {b : Nat} (h : Nat) (t : NodeInfo) (h1 : t.br = b) (h2 : t.bc = b) :
    nearRows a b h t ≤ weightSum b h t.rows t.absRow (fun x => nearCount a b h x t.absCol) := by
  induction h generalizing t with
  | zero =>
    rw [nearRows, weightSum]
    split
    · rename_i hn
      have : nearCount a b 0 t.absRow t.absCol = 1 := by
        simp only [nearCount, pow_zero, range_one, sum_singleton, mul_one, Nat.cast_zero, add_zero, if_pos hn]
      rw [this, Nat.mul_one]
    · exact Nat.zero_le _
  | succ h ih =>
    rw [nearRows, weightSum]
    split
    · rename_i hp
      rw [if_pos hp.1]
      refine sum_le_sum fun k _ => ?_
      simp only [← nearCount_succ, ← weightSum_sum]
      refine sum_le_sum fun l _ => ?_
      have := ih (ClusterTree.childInfo t k l) h1 h2
      simp only [ClusterTree.childInfo, h1, h2] at this ⊢
      exact this
    · exact Nat.zero_le _

theorem nearRows_le {a : Int} (ha : 0 ≤ a) {b : Nat} (h : Nat) (t : NodeInfo) (h1 : t.br = b) (h2 : t.bc = b) :
    nearRows a b h t ≤ (2 * a.toNat + 1) * t.rows.n.toNat :=
  (nearRows_le_weightSum h t h1 h2).trans (weightSum_le (fun x => nearCount_le ha b h x _) h _ _)

theorem nearCols_le {a : Int} (ha : 0 ≤ a) {b : Nat} (h : Nat) (t : NodeInfo) (h1 : t.br = b) (h2 : t.bc = b) :
    nearCols a b h t ≤ (2 * a.toNat + 1) * t.cols.n.toNat :=
  nearRows_le ha h t.flip h2 h1

/-! ### built blocks -/

namespace ClusterTree

variable {R : Type} {K : Type} [Field K] [LinearOrder K]

/-- `X` is the block built for a node with the given members. -/
def BuiltBlock (a : Admis K) (fill : FillFn R) (compress : Dense R → Except Err (LowRank R)) (fuel : Nat)
    (t : NodeInfo) (X : Mat R) : Prop :=
  ∃ c, build fuel false t = .ok c ∧ childBlock a fill compress c = .ok X

theorem partsOk {r : IndexRange} {b : Nat} (hb : 1 ≤ b) (h0 : 0 ≤ r.n) (h : r.SplitOk b) : PartsOk b r := by
  have hp := IndexRange.split_isPartition r b h0 hb h
  obtain ⟨h1, h2⟩ := splitChild_offset hp hb
  refine ⟨h0, fun k hk => ((partition_splitChild hp).2.2 k hk).1, ?_⟩
  rw [h2, Int.toNat_natCast]
  rfl

theorem toMat_children {a : Admis K} {fill : FillFn R} {compress : Dense R → Except Err (LowRank R)}
    (hfill : ∀ rows cols d, fill rows cols = .ok d → (d.rows : Int) = rows.n ∧ (d.cols : Int) = cols.n)
    {fuel : Nat} {isRoot : Bool} {t : NodeInfo} {ch : Nat → Nat → ClusterTree} {M : Mat R}
    (h : build (fuel + 1) isRoot t = .ok (.node t ch)) (hbr : 1 ≤ t.br) (hbc : 1 ≤ t.bc)
    (hM : toMat a fill compress (.node t ch) = .ok M) :
    PartsOk t.br t.rows ∧ PartsOk t.bc t.cols ∧ ∃ blk, M = .hier t.br t.bc blk ∧
      ∀ i < t.br, ∀ j < t.bc, BuiltBlock a fill compress fuel (childInfo t i j) (blk i j) := by
  obtain ⟨-, -, f', hf', hch⟩ := build_node h
  obtain rfl : f' = fuel := by omega
  have hinfo : ∀ i < t.br, ∀ j < t.bc, (ch i j).info = childInfo t i j :=
    fun i hi j hj => build_info (hch i hi j hj)
  obtain ⟨h1, h2, h3, h4⟩ := toMat_nonneg (fun r c d hd => by
    have := hfill r c d hd; omega) h hbr hbc hM
  obtain ⟨blk, rfl, hblk⟩ := toMat_node (fun i hi j hj => by
    rw [hinfo i hi j hj]; simp [childInfo]) hM
  exact ⟨partsOk hbr h1 h3, partsOk hbc h2 h4, blk, rfl, fun i hi j hj => ⟨_, hch i hi j hj, hblk i hi j hj⟩⟩

/-- The three kinds of blocks. -/
theorem BuiltBlock.cases {a : Admis K} {fill : FillFn R} {compress : Dense R → Except Err (LowRank R)}
    (hfill : ∀ rows cols d, fill rows cols = .ok d → (d.rows : Int) = rows.n ∧ (d.cols : Int) = cols.n)
    {fuel : Nat} {t : NodeInfo} {X : Mat R} (h : BuiltBlock a fill compress fuel t X)
    (hbr : 1 ≤ t.br) (hbc : 1 ≤ t.bc) :
    (isAdmissible a t = .ok true ∧ ∃ d l, (d.rows : Int) = t.rows.n ∧ (d.cols : Int) = t.cols.n ∧
      compress d = .ok l ∧ X = .lowRank l) ∨
    (isAdmissible a t = .ok false ∧ isLeaf t = true ∧ ∃ d, (d.rows : Int) = t.rows.n ∧
      (d.cols : Int) = t.cols.n ∧ X = .dense d) ∨
    (isAdmissible a t = .ok false ∧ isLeaf t = false ∧ PartsOk t.br t.rows ∧ PartsOk t.bc t.cols ∧
      ∃ f blk, fuel = f + 1 ∧ X = .hier t.br t.bc blk ∧
        ∀ i < t.br, ∀ j < t.bc, BuiltBlock a fill compress f (childInfo t i j) (blk i j)) := by
  obtain ⟨c, hc, hb⟩ := h
  have hi := build_info hc
  rw [childBlock, except_bind_eq_ok, hi] at hb
  obtain ⟨adm, hadm, hb⟩ := hb
  cases adm with
  | true =>
    simp only [if_true, except_bind_eq_ok] at hb
    obtain ⟨d, hd, l, hl, e⟩ := hb
    exact Or.inl ⟨hadm, d, l, (hfill _ _ _ hd).1, (hfill _ _ _ hd).2, hl, (Except.ok.inj e).symm⟩
  | false =>
    simp only [Bool.false_eq_true, if_false] at hb
    split at hb
    · rename_i hl
      rw [except_bind_eq_ok] at hb
      obtain ⟨d, hd, e⟩ := hb
      exact Or.inr (Or.inl ⟨hadm, hl, d, (hfill _ _ _ hd).1, (hfill _ _ _ hd).2, (Except.ok.inj e).symm⟩)
    · rename_i hl
      cases c with
      | leaf s =>
        obtain ⟨rfl, -, hl'⟩ := build_leaf hc
        exact absurd hl' hl
      | node s ch =>
        obtain ⟨rfl, -, f, rfl, -⟩ := build_node hc
        obtain ⟨p1, p2, blk, e, hch⟩ := toMat_children hfill hc hbr hbc hb
        exact Or.inr (Or.inr ⟨hadm, by simpa using hl, p1, p2, f, blk, rfl, e, hch⟩)

theorem PartsOk.part_le {b : Nat} {r : IndexRange} (h : PartsOk b r) {k : Nat} (hk : k < b) :
    (r.splitChild b (k : Nat)).n ≤ r.n := by
  have h1 := single_le_sum (f := fun k : Nat => (r.splitChild b (k : Nat)).n.toNat) (fun i _ => Nat.zero_le _)
    (mem_range.2 hk)
  rw [h.2.2] at h1
  have h2 := h.1
  have h3 := h.2.1 k hk
  omega

/-- A block with a single row or column is stored without compression. -/
theorem BuiltBlock.vector {adm : Int} {fill : FillFn R} {compress : Dense R → Except Err (LowRank R)}
    (hfill : ∀ rows cols d, fill rows cols = .ok d → (d.rows : Int) = rows.n ∧ (d.cols : Int) = cols.n)
    {fuel : Nat} {t : NodeInfo} {X : Mat R}
    (h : BuiltBlock (Admis.position adm : Admis K) fill compress fuel t X) (hbr : 1 ≤ t.br) (hbc : 1 ≤ t.bc)
    (hv : t.rows.n ≤ 1 ∨ t.cols.n ≤ 1) : storedElements X = t.rows.n.toNat * t.cols.n.toNat := by
  induction fuel generalizing t X with
  | zero => obtain ⟨c, hc, -⟩ := h; simp [build] at hc
  | succ fuel ih =>
    rcases h.cases hfill hbr hbc with ⟨ha, -⟩ | ⟨-, -, d, h1, h2, rfl⟩ | ⟨-, -, p1, p2, f, blk, hf, rfl, hch⟩
    · simp only [isAdmissible] at ha
      have ha := Except.ok.inj ha
      simp only [Bool.and_eq_true, decide_eq_true_eq] at ha
      omega
    · simp only [storedElements]
      rw [← h1, ← h2]; simp
    · obtain rfl : fuel = f := by omega
      rw [storedElements]
      rw [← p1.2.2, ← p2.2.2, sum_mul_sum]
      refine sum_congr rfl fun i hi => sum_congr rfl fun j hj => ?_
      refine ih (hch i (mem_range.1 hi) j (mem_range.1 hj)) hbr hbc ?_
      have e1 := PartsOk.part_le p1 (mem_range.1 hi)
      have e2 := PartsOk.part_le p2 (mem_range.1 hj)
      simp only [childInfo]
      omega

/-- A block far from the diagonal. -/
theorem BuiltBlock.far {adm : Int} {fill : FillFn R} {compress : Dense R → Except Err (LowRank R)} {r : Nat}
    (hr : 1 ≤ r)
    (hfill : ∀ rows cols d, fill rows cols = .ok d → (d.rows : Int) = rows.n ∧ (d.cols : Int) = cols.n)
    (hcomp : ∀ d l, compress d = .ok l → l.dim0 = d.rows ∧ l.dim1 = d.cols ∧ l.rank ≤ r ∧
      l.rank ≤ d.rows ∧ l.rank ≤ d.cols)
    {fuel : Nat} {t : NodeInfo} {X : Mat R}
    (h : BuiltBlock (Admis.position adm : Admis K) fill compress fuel t X) (hbr : 1 ≤ t.br) (hbc : 1 ≤ t.bc)
    (hf : ¬ Near adm t.absRow t.absCol) :
    2 * storedElements X ≤ 3 * r * (t.rows.n.toNat + t.cols.n.toNat) := by
  have hadm : isAdmissible (Admis.position adm : Admis K) t = .ok false → t.rows.n ≤ 1 ∨ t.cols.n ≤ 1 := by
    intro ha
    simp only [isAdmissible] at ha
    have ha := Except.ok.inj ha
    unfold Near at hf
    by_contra hn
    have h1 : decide (1 < t.rows.n ∧ 1 < t.cols.n) = true := decide_eq_true (by omega)
    have h2 : decide (adm < distToDiag t) = true := decide_eq_true (by unfold distToDiag; omega)
    rw [h1, h2] at ha
    exact absurd ha (by decide)
  have hvec : (t.rows.n ≤ 1 ∨ t.cols.n ≤ 1) →
      2 * storedElements X ≤ 3 * r * (t.rows.n.toNat + t.cols.n.toNat) := by
    intro hv
    rw [h.vector hfill hbr hbc hv]
    generalize hm : t.rows.n.toNat = m
    generalize hn : t.cols.n.toNat = n
    have : m * n ≤ m + n := by
      have hv : m ≤ 1 ∨ n ≤ 1 := by omega
      rcases hv with hv | hv
      · exact (Nat.mul_le_mul_right n hv).trans (by omega)
      · exact (Nat.mul_le_mul_left m hv).trans (by omega)
    nlinarith
  rcases h.cases hfill hbr hbc with ⟨-, d, l, h1, h2, hc, rfl⟩ | ⟨ha, -⟩ | ⟨ha, -⟩
  · obtain ⟨e0, e1, k0, k1, k2⟩ := hcomp d l hc
    rw [storedElements, e0, e1, ← h1, ← h2]
    simp only [Int.toNat_natCast]
    nlinarith [Nat.mul_le_mul k0 k1, Nat.mul_le_mul k0 k2, Nat.mul_le_mul k0 (le_refl d.rows),
      Nat.mul_le_mul k0 (le_refl d.cols)]
  · exact hvec (hadm ha)
  · exact hvec (hadm ha)

theorem splitChild_le {r : IndexRange} {b : Nat} (hb : 1 ≤ b) (h0 : 0 ≤ r.n) {q : Int} (hq : r.n ≤ q * b)
    (k : Nat) : (r.splitChild b (k : Nat)).n ≤ q := by
  have hb' : (0 : Int) < b := by exact_mod_cast hb
  have hc : Int.tdiv (r.n + b - 1) b ≤ q := by
    rw [Int.tdiv_eq_ediv_of_nonneg (by omega)]
    have : (r.n + b - 1) / b < q + 1 := by
      rw [Int.ediv_lt_iff_lt_mul hb']
      nlinarith
    omega
  have hge : r.n ≤ Int.tdiv (r.n + b - 1) b * b := by
    rw [Int.tdiv_eq_ediv_of_nonneg (by omega)]
    have := Int.lt_ediv_add_one_mul_self (r.n + b - 1) hb'
    nlinarith
  simp only [IndexRange.splitChild]
  split
  · nlinarith
  · exact hc

/-- The bound for the blocks below a subdivided node, summed. -/
theorem near_sum {adm : Int} {b nl r : Nat} (H : Nat) {t : NodeInfo} (hbr : t.br = b) (hbc : t.bc = b)
    (p1 : PartsOk b t.rows) (p2 : PartsOk b t.cols) {s : Nat → Nat → Nat}
    (hs : ∀ k < b, ∀ l < b, 2 * s k l ≤ 3 * r * ((childInfo t k l).rows.n.toNat + (childInfo t k l).cols.n.toNat) +
      (∑ h ∈ range (H + 1), 2 * nl * nearRows adm b h (childInfo t k l) +
        ∑ h ∈ range H, 3 * b * r * (nearRows adm b h (childInfo t k l) + nearCols adm b h (childInfo t k l)))) :
    2 * ∑ k ∈ range b, ∑ l ∈ range b, s k l ≤ 3 * b * r * (t.rows.n.toNat + t.cols.n.toNat) +
      (∑ h ∈ range (H + 1), 2 * nl * nearRows adm b (h + 1) t +
        ∑ h ∈ range H, 3 * b * r * (nearRows adm b (h + 1) t + nearCols adm b (h + 1) t)) := by
  have e1 : ∑ k ∈ range b, ∑ l ∈ range b,
      3 * r * ((childInfo t k l).rows.n.toNat + (childInfo t k l).cols.n.toNat) =
      3 * b * r * (t.rows.n.toNat + t.cols.n.toNat) := by
    simp only [childInfo, hbr, hbc, ← p1.2.2, ← p2.2.2, mul_add, sum_add_distrib, ← mul_sum, sum_const,
      card_range, smul_eq_mul]
    ring
  have e2 : ∀ h, nearRows adm b (h + 1) t = ∑ k ∈ range b, ∑ l ∈ range b, nearRows adm b h (childInfo t k l) :=
    fun h => by rw [nearRows, if_pos ⟨p1, p2⟩]
  have e3 : ∀ h, nearCols adm b (h + 1) t = ∑ k ∈ range b, ∑ l ∈ range b, nearCols adm b h (childInfo t k l) :=
    fun h => by rw [nearCols_succ, if_pos ⟨p1, p2⟩]
  have swap : ∀ (n : Nat) (f : Nat → Nat → Nat → Nat), ∑ k ∈ range b, ∑ l ∈ range b, ∑ h ∈ range n, f h k l =
      ∑ h ∈ range n, ∑ k ∈ range b, ∑ l ∈ range b, f h k l := by
    intro n f
    rw [sum_comm, sum_congr rfl fun l _ => sum_comm, sum_comm]
    exact sum_congr rfl fun h _ => sum_comm
  calc 2 * ∑ k ∈ range b, ∑ l ∈ range b, s k l = ∑ k ∈ range b, ∑ l ∈ range b, 2 * s k l := by
        simp only [mul_sum]
    _ ≤ _ := sum_le_sum fun k hk => sum_le_sum fun l hl => hs k (mem_range.1 hk) l (mem_range.1 hl)
    _ = _ := by
        rw [← e1]
        simp only [sum_add_distrib, swap, e2, e3, ← mul_sum]

/-- A block near the diagonal. -/
theorem BuiltBlock.near {adm : Int} {fill : FillFn R} {compress : Dense R → Except Err (LowRank R)} {r : Nat}
    (hr : 1 ≤ r)
    (hfill : ∀ rows cols d, fill rows cols = .ok d → (d.rows : Int) = rows.n ∧ (d.cols : Int) = cols.n)
    (hcomp : ∀ d l, compress d = .ok l → l.dim0 = d.rows ∧ l.dim1 = d.cols ∧ l.rank ≤ r ∧
      l.rank ≤ d.rows ∧ l.rank ≤ d.cols)
    {b nl : Nat} (hb : 1 ≤ b) (hl : 1 ≤ nl) (H : Nat) {fuel : Nat} {t : NodeInfo} {X : Mat R}
    (h : BuiltBlock (Admis.position adm : Admis K) fill compress fuel t X) (hbr : t.br = b) (hbc : t.bc = b)
    (hnl : t.nleaf = nl) (h0 : t.rows.n ≤ nl * (b : Int) ^ H) (h1 : t.cols.n ≤ nl * (b : Int) ^ H)
    (hn : Near adm t.absRow t.absCol) :
    2 * storedElements X ≤ ∑ h ∈ range (H + 1), 2 * nl * nearRows adm b h t +
      ∑ h ∈ range H, 3 * b * r * (nearRows adm b h t + nearCols adm b h t) := by
  have hna : ∀ {t : NodeInfo}, Near adm t.absRow t.absCol → isAdmissible (Admis.position adm : Admis K) t ≠ .ok true := by
    intro t hn ha
    simp only [isAdmissible] at ha
    have ha := Except.ok.inj ha
    simp only [Bool.and_eq_true, decide_eq_true_eq] at ha
    have h2 := ha.2
    unfold distToDiag at h2
    unfold Near at hn
    omega
  have hdense : ∀ {t : NodeInfo}, Near adm t.absRow t.absCol → t.nleaf = nl → isLeaf t = true →
      ∀ (d : Dense R) (H : Nat), (d.rows : Int) = t.rows.n → (d.cols : Int) = t.cols.n →
      2 * storedElements (.dense d) ≤ ∑ h ∈ range (H + 1), 2 * nl * nearRows adm b h t := by
    intro t hn hnl hleaf d H e0 e1
    simp only [isLeaf, hnl, Bool.or_eq_true, Bool.and_eq_true, decide_eq_true_eq] at hleaf
    refine le_trans ?_ (single_le_sum (f := fun h => 2 * nl * nearRows adm b h t) (fun _ _ => Nat.zero_le _)
      (mem_range.2 (Nat.succ_pos H)))
    simp only [nearRows, if_pos hn, storedElements]
    rw [← e0, Int.toNat_natCast]
    have : d.cols ≤ nl := by omega
    nlinarith [Nat.mul_le_mul_left d.rows this]
  induction H generalizing fuel t X with
  | zero =>
    rcases h.cases hfill (by omega) (by omega) with ⟨ha, -⟩ | ⟨-, hleaf, d, e0, e1, rfl⟩ | ⟨-, hleaf, -⟩
    · exact absurd ha (hna hn)
    · exact (hdense hn hnl hleaf d 0 e0 e1).trans (Nat.le_add_right _ _)
    · simp only [isLeaf, hnl, pow_zero, mul_one] at hleaf h0 h1
      simp [h0, h1] at hleaf
  | succ H ih =>
    rcases h.cases hfill (by omega) (by omega) with ⟨ha, -⟩ | ⟨-, hleaf, d, e0, e1, rfl⟩ |
      ⟨-, hleaf, p1, p2, f, blk, rfl, rfl, hch⟩
    · exact absurd ha (hna hn)
    · exact (hdense hn hnl hleaf d (H + 1) e0 e1).trans (Nat.le_add_right _ _)
    · rw [hbr] at p1 hch
      rw [hbc] at p2 hch
      rw [storedElements, hbr, hbc]
      refine (near_sum (adm := adm) (nl := nl) (r := r) H hbr hbc p1 p2 (fun k hk l hl => ?_)).trans ?_
      · by_cases hk' : Near adm (childInfo t k l).absRow (childInfo t k l).absCol
        · refine le_trans (ih (hch k hk l hl) hbr hbc hnl ?_ ?_ hk') (Nat.le_add_left _ _)
          · simp only [childInfo, hbr]
            exact splitChild_le hb p1.1 (by rw [mul_assoc, ← pow_succ]; exact h0) k
          · simp only [childInfo, hbc]
            exact splitChild_le hb p2.1 (by rw [mul_assoc, ← pow_succ]; exact h1) l
        · refine le_trans ((hch k hk l hl).far hr hfill hcomp (by simp only [childInfo]; omega)
            (by simp only [childInfo]; omega) hk') (Nat.le_add_right _ _)
      · rw [sum_range_succ' (fun h => 2 * nl * nearRows adm b h t) (H + 1),
          sum_range_succ' (fun h => 3 * b * r * (nearRows adm b h t + nearCols adm b h t)) H]
        have c0 : nearCols adm b 0 t = t.cols.n.toNat := by rw [nearCols_zero, if_pos hn]
        have r0 : nearRows adm b 0 t = t.rows.n.toNat := by rw [nearRows, if_pos hn]
        rw [c0, r0]
        omega

end ClusterTree

end Verif
