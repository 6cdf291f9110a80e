import Verif.Model.BlrQr
import Verif.Lemmas.BuiltLu
import Verif.Lemmas.BlrFacts
import Verif.Lemmas.DiffNorm
import Verif.Props.Construct

/-
The block low-rank matrices constructed by the QR example programs.
-/

namespace Verif
open Finset

variable {R : Type} {K : Type} [Field K] [LinearOrder K]

namespace ClusterTree

theorem splitChild_mul (b : Nat) {p i : Nat} (hi : i < p) :
    (⟨0, (p * b : Nat)⟩ : IndexRange).splitChild p i = ⟨(i * b : Nat), b⟩ := by
  have h := partSize_mul (c := b) (by omega) hi
  rw [partSize, show (b : Int) * p = ((p * b : Nat) : Int) by push_cast; ring] at h
  have e : Int.tdiv (((p * b : Nat) : Int) + p - 1) p = b := by
    have hb : (1 : Int) ≤ p := by omega
    have hn : (0 : Int) ≤ ((p * b : Nat) : Int) := Int.natCast_nonneg _
    rw [Int.tdiv_eq_ediv_of_nonneg (by omega)]
    rw [show ((p * b : Nat) : Int) + p - 1 = (p - 1) + b * p by push_cast; ring,
      Int.add_mul_ediv_right _ _ (by omega), Int.ediv_eq_zero_of_lt (by omega) (by omega), zero_add]
  have h2 : ((⟨0, (p * b : Nat)⟩ : IndexRange).splitChild p i).start = (i * b : Nat) := by
    simp only [IndexRange.splitChild, e]
    push_cast
    ring
  cases hs : (⟨0, (p * b : Nat)⟩ : IndexRange).splitChild p i
  rw [hs] at h h2
  simp only at h h2
  rw [h, h2]

end ClusterTree

/-- The kernel function returns for every block of an `m`-by-`n` matrix. -/
def KernelReturns (k : KernelFn R) (m n : Nat) : Prop :=
  ∀ mem m' n' stride (r c : Nat), r + m' ≤ m → c + n' ≤ n → ∃ mem', k mem m' n' stride r c = .ok mem'

theorem mul_add_lt {b i r n : Nat} (h1 : i < n) (h2 : r < b) : i * b + r < n * b :=
  calc i * b + r < i * b + b := by omega
    _ = (i + 1) * b := by ring
    _ ≤ n * b := Nat.mul_le_mul_right b h1

theorem mul_add_le {b i n : Nat} (h1 : i < n) : i * b + b ≤ n * b :=
  calc i * b + b = (i + 1) * b := by ring
    _ ≤ n * b := Nat.mul_le_mul_right b h1

/-- The matrix that the constructor from a kernel returns for `p * q` tiles of order
`b` and leaf size `b`: one level of tiles, compressed if they are farther than `a`
from the diagonal. -/
theorem blr_structure [Zero R] {k : KernelFn R} {f : Int → Int → R} (hk : ComputesEntries k f)
    {compress : Dense R → Except Err (LowRank R)} {p q b : Nat} (hk' : KernelReturns k (p * b) (q * b)) (a : Int)
    (hc : ∀ i < p, ∀ j < q, 1 < b → a < (((i : Int) - j).natAbs : Int) →
      ∀ d : Dense R, d.rows = b → d.cols = b → ∃ l, compress d = .ok l)
    {fuel : Nat} (hfu : 2 ≤ fuel) :
    ∃ blk : Nat → Nat → Mat R,
      hierOfKernel fuel k compress (p * b) (q * b) b (Admis.position a : Admis K) p q 0 0 = .ok (.hier p q blk) ∧
      ∀ i < p, ∀ j < q, ∃ d : Dense R, d.rows = b ∧ d.cols = b ∧
        (∀ r < b, ∀ s < b, d.val r s = f (i * b + r : Nat) (j * b + s : Nat)) ∧
        ((1 < b ∧ a < (((i : Int) - j).natAbs : Int) ∧ ∃ l, compress d = .ok l ∧ blk i j = .lowRank l) ∨
          (¬(1 < b ∧ a < (((i : Int) - j).natAbs : Int)) ∧ blk i j = .dense d)) := by
  obtain ⟨fu, rfl⟩ : ∃ fu, fuel = fu + 2 := ⟨fuel - 2, by omega⟩
  set t := ClusterTree.rootInfo ⟨0, (p * b : Nat)⟩ ⟨0, (q * b : Nat)⟩ p q b with ht
  have rows : ∀ i < p, ∀ j, (ClusterTree.childInfo t i j).rows = ⟨(i * b : Nat), b⟩ := fun i hi j =>
    ClusterTree.splitChild_mul b hi
  have cols : ∀ i, ∀ j < q, (ClusterTree.childInfo t i j).cols = ⟨(j * b : Nat), b⟩ := fun i j hj =>
    ClusterTree.splitChild_mul b hj
  have leaf : ∀ i < p, ∀ j < q, ClusterTree.isLeaf (ClusterTree.childInfo t i j) = true := by
    intro i hi j hj
    simp only [ClusterTree.isLeaf, rows i hi j, cols i j hj]
    simp [ClusterTree.childInfo, ht, ClusterTree.rootInfo]
  have adm : ∀ i < p, ∀ j < q, isAdmissible (Admis.position a : Admis K) (ClusterTree.childInfo t i j) =
      .ok (decide (1 < b ∧ a < (((i : Int) - j).natAbs : Int))) := by
    intro i hi j hj
    simp only [isAdmissible, rows i hi j, cols i j hj, ClusterTree.distToDiag]
    simp only [ClusterTree.childInfo, ht, ClusterTree.rootInfo, zero_mul, zero_add]
    congr 1
    by_cases h : 1 < b <;> simp [h]
  obtain ⟨ch, hch⟩ : ∃ ch, ClusterTree.build (fu + 2) true t = .ok (.node t ch) := by
    obtain ⟨g, hg⟩ := collect2_exists (m := t.br) (n := t.bc)
      (f := fun i j => ClusterTree.build (fu + 1) false (ClusterTree.childInfo t i j)) (by
        intro i hi j hj
        exact ⟨.leaf (ClusterTree.childInfo t i j), by rw [ClusterTree.build, leaf i hi j hj]; simp⟩)
    exact ⟨g, by rw [ClusterTree.build]; simp [hg]⟩
  obtain ⟨-, -, f', hf', hbu⟩ := ClusterTree.build_node hch
  have info : ∀ i < p, ∀ j < q, (ch i j).info = ClusterTree.childInfo t i j := fun i hi j hj =>
    ClusterTree.build_info (hbu i hi j hj)
  have fill : ∀ i < p, ∀ j < q, ∃ d : Dense R, kernelFill k (ClusterTree.childInfo t i j).rows
      (ClusterTree.childInfo t i j).cols = .ok d ∧ d.rows = b ∧ d.cols = b ∧
      ∀ r < b, ∀ s < b, d.val r s = f (i * b + r : Nat) (j * b + s : Nat) := by
    intro i hi j hj
    rw [rows i hi j, cols i j hj]
    obtain ⟨mem, hm⟩ := hk' (fun _ => 0) b b b (i * b) (j * b) (mul_add_le hi) (mul_add_le hj)
    have e : ∃ d : Dense R, kernelFill k ⟨(i * b : Nat), b⟩ ⟨(j * b : Nat), b⟩ = .ok d := by
      rw [kernelFill, if_pos ⟨by simp, by simp⟩, Dense.ofKernel]
      simp only [Int.toNat_natCast, hm, except_bind_ok]
      exact ⟨_, rfl⟩
    obtain ⟨d, hd⟩ := e
    obtain ⟨h1, h2, h3⟩ := kernelFill_ok hk _ _ d hd
    have h1 : d.rows = b := by simpa using h1
    have h2 : d.cols = b := by simpa using h2
    refine ⟨d, hd, h1, h2, fun r hr s hs => ?_⟩
    rw [h3 r (by omega) s (by omega)]
    push_cast
    rfl
  have blocks : ∀ i < p, ∀ j < q, ∃ X, ClusterTree.childBlock (Admis.position a : Admis K) (kernelFill k)
      compress (ch i j) = .ok X := by
    intro i hi j hj
    obtain ⟨d, hd, d0, d1, -⟩ := fill i hi j hj
    rw [ClusterTree.childBlock, info i hi j hj, adm i hi j hj, except_bind_ok, leaf i hi j hj, hd]
    by_cases h : 1 < b ∧ a < (((i : Int) - j).natAbs : Int)
    · obtain ⟨l, hl⟩ := hc i hi j hj h.1 h.2 d d0 d1
      simp only [h, and_self, decide_true, if_true, except_bind_ok, hl]
      exact ⟨_, rfl⟩
    · simp only [h, decide_false, Bool.false_eq_true, if_false, if_true, except_bind_ok]
      exact ⟨_, rfl⟩
  obtain ⟨M, hM⟩ := ClusterTree.toMat_node_exists (a := (Admis.position a : Admis K)) (fill := kernelFill k)
    (compress := compress) (t := t) (ch := ch)
    (fun i hi j hj => by rw [info i hi j hj]; exact ⟨rfl, rfl⟩) blocks
  obtain ⟨fu', blk, -, rfl, hb⟩ := ClusterTree.toMat_level hch hM
  refine ⟨blk, ?_, fun i hi j hj => ?_⟩
  · rw [hierOfKernel, ← ht, hch, except_bind_ok]
    exact hM
  · obtain ⟨d, hd, d0, d1, d2⟩ := fill i hi j hj
    refine ⟨d, d0, d1, d2, ?_⟩
    rcases ClusterTree.childBlock_cases (hb i hi j hj).1 (hb i hi j hj).2 with
      ⟨d', l, h1, h2, h3, e⟩ | ⟨d', h1, -, h2, e⟩ | ⟨ch', -, h1, -⟩
    · rw [hd] at h2
      cases Except.ok.inj h2
      rw [adm i hi j hj] at h1
      have := of_decide_eq_true (Except.ok.inj h1)
      exact Or.inl ⟨this.1, this.2, l, h3, e⟩
    · rw [hd] at h2
      cases Except.ok.inj h2
      rw [adm i hi j hj] at h1
      exact Or.inr ⟨of_decide_eq_false (Except.ok.inj h1), e⟩
    · rw [leaf i hi j hj] at h1
      cases h1

/-- A grid of tiles of order `b`. -/
structure BlrTiles (p q b : Nat) (blk : Nat → Nat → Mat R) : Prop where
  size : ∀ i < p, ∀ j < q, (blk i j).nRows = b ∧ (blk i j).nCols = b
  leaf : ∀ i < p, ∀ j < q, (blk i j).WF ∧ (blk i j).IsTile

namespace BlrTiles
variable {p q b : Nat} {blk : Nat → Nat → Mat R}

theorem rows (h : BlrTiles p q b blk) (hq : 0 < q) : (Mat.hier p q blk).nRows = p * b := by
  rw [Mat.nRows_hier, psum_congr (fun i hi => (h.size i hi 0 hq).1)]
  simp [psum]

theorem cols (h : BlrTiles p q b blk) (hp : 0 < p) : (Mat.hier p q blk).nCols = q * b := by
  rw [Mat.nCols_hier, psum_congr (fun j hj => (h.size 0 hp j hj).2)]
  simp [psum]

theorem wf (h : BlrTiles p q b blk) (hp : 0 < p) (hq : 0 < q) : (Mat.hier p q blk).WF := by
  simp only [Mat.WF]
  refine ⟨hp, hq, fun i hi j hj => ⟨(h.leaf i hi j hj).1, ?_, ?_⟩⟩
  · rw [(h.size i hi j hj).1, (h.size i hi 0 hq).1]
  · rw [(h.size i hi j hj).2, (h.size 0 hp j hj).2]

theorem even (h : BlrTiles p q b blk) (hp : 0 < p) (hq : 0 < q) : (Mat.hier p q blk).Even := by
  simp only [Mat.Even]
  intro i hi j hj
  have e1 : ∑ i ∈ range p, (blk i 0).nRows = p * b := by
    have := h.rows hq
    rwa [Mat.nRows_hier] at this
  have e2 : ∑ j ∈ range q, (blk 0 j).nCols = q * b := by
    have := h.cols hp
    rwa [Mat.nCols_hier] at this
  refine ⟨?_, ?_, ?_⟩
  · have := (h.leaf i hi j hj).2
    cases e : blk i j with
    | dense => trivial
    | lowRank => trivial
    | hier => rw [e] at this; exact this.elim
    | empty => trivial
  · rw [e1, ClusterTree.splitChild_mul b hi, (h.size i hi j hj).1]
  · rw [e2, ClusterTree.splitChild_mul b hj, (h.size i hi j hj).2]

theorem noEmpty (h : BlrTiles p q b blk) : (Mat.hier p q blk).NoEmpty := by
  simp only [Mat.NoEmpty]
  intro i hi j hj
  have := (h.leaf i hi j hj).2
  cases e : blk i j with
  | dense => trivial
  | lowRank => trivial
  | hier => rw [e] at this; exact this.elim
  | empty => rw [e] at this; exact this.elim

theorem depth (h : BlrTiles p q b blk) : (Mat.hier p q blk).depth ≤ 1 := by
  simp only [Mat.depth]
  have : (range p).sup (fun i => (range q).sup (fun j => (blk i j).depth)) = 0 := by
    rw [← Nat.le_zero]
    refine Finset.sup_le fun i hi => Finset.sup_le fun j hj => ?_
    have := (h.leaf i (mem_range.1 hi) j (mem_range.1 hj)).2
    cases e : blk i j with
    | dense => exact le_rfl
    | lowRank => exact le_rfl
    | hier => rw [e] at this; exact this.elim
    | empty => exact le_rfl
  omega

theorem entry [CommRing R] (h : BlrTiles p q b blk) (hp : 0 < p) (hq : 0 < q) {f : Nat → Nat → R}
    (hf : ∀ i < p, ∀ j < q, ∀ r < b, ∀ s < b, (blk i j).entry r s = f (i * b + r) (j * b + s)) :
    ∀ x < p * b, ∀ y < q * b, (Mat.hier p q blk).entry x y = f x y := by
  intro x hx y hy
  have e : ∀ n, psum (fun _ => b) n = n * b := fun n => by simp [psum]
  obtain ⟨x1, x2, x3⟩ := Mat.locate_spec (fun _ => b) p x (by rw [e]; exact hx)
  obtain ⟨y1, y2, y3⟩ := Mat.locate_spec (fun _ => b) q y (by rw [e]; exact hy)
  have := Mat.entry_at (blk := blk) (h := fun _ => b) (w := fun _ => b) (fun i hi => (h.size i hi 0 hq).1)
    (fun j hj => (h.size 0 hp j hj).2) x1 y1 x2 y2
  rw [x3, y3, hf _ x1 _ y1 _ x2 _ y2] at this
  rw [e] at x3 y3
  rw [this, x3, y3]

end BlrTiles

end Verif
