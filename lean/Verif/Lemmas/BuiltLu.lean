import Verif.Spec.BuiltLu
import Verif.Lemmas.Construct
import Verif.Lemmas.Lu
import Mathlib.Tactic.Linarith
import Mathlib.Tactic.Ring
import Mathlib.Tactic.Positivity

/-
Structure of constructed matrices: regular subdivisions, and when LU factorization
applies.
-/

namespace Verif
open Finset

variable {R : Type} {K : Type} [Field K] [LinearOrder K]

namespace ClusterTree

theorem partSize_eq (r : IndexRange) (b i : Nat) : (r.splitChild b i).n = partSize r.n b i := rfl

theorem childBlock_cases {a : Admis K} {fill : FillFn R} {compress : Dense R → Except Err (LowRank R)}
    {fuel : Nat} {t : NodeInfo} {c : ClusterTree} {X : Mat R} (hbu : build fuel false t = .ok c)
    (h : childBlock a fill compress c = .ok X) :
    (∃ d l, isAdmissible a t = .ok true ∧ fill t.rows t.cols = .ok d ∧ compress d = .ok l ∧ X = .lowRank l) ∨
    (∃ d, isAdmissible a t = .ok false ∧ isLeaf t = true ∧ fill t.rows t.cols = .ok d ∧ X = .dense d) ∨
    (∃ ch, isAdmissible a t = .ok false ∧ isLeaf t = false ∧ c = .node t ch ∧
      toMat a fill compress (.node t ch) = .ok X) := by
  have hin := build_info hbu
  rw [childBlock, hin, except_bind_eq_ok] at h
  obtain ⟨adm, hadm, h⟩ := h
  cases adm with
  | true =>
    simp only [if_true, except_bind_eq_ok] at h
    obtain ⟨d, hd, l, hl, h⟩ := h
    exact Or.inl ⟨d, l, hadm, hd, hl, (Except.ok.inj h).symm⟩
  | false =>
    simp only [Bool.false_eq_true, if_false] at h
    by_cases hl : isLeaf t = true
    · simp only [hl, if_true, except_bind_eq_ok] at h
      obtain ⟨d, hd, h⟩ := h
      exact Or.inr (Or.inl ⟨d, hadm, hl, hd, (Except.ok.inj h).symm⟩)
    · rw [if_neg hl] at h
      refine Or.inr (Or.inr ?_)
      cases c with
      | leaf s => exact absurd (build_leaf hbu).2.2 hl
      | node s ch =>
        obtain rfl := (build_node hbu).1
        exact ⟨ch, hadm, by simpa using hl, rfl, h⟩

/-- A successful constructor call, one level down. -/
theorem toMat_level {a : Admis K} {fill : FillFn R} {compress : Dense R → Except Err (LowRank R)}
    {fuel : Nat} {isRoot : Bool} {t : NodeInfo} {ch : Nat → Nat → ClusterTree} {M : Mat R}
    (h : build fuel isRoot t = .ok (.node t ch)) (hM : toMat a fill compress (.node t ch) = .ok M) :
    ∃ f blk, fuel = f + 1 ∧ M = .hier t.br t.bc blk ∧ ∀ i < t.br, ∀ j < t.bc,
      build f false (childInfo t i j) = .ok (ch i j) ∧
      childBlock a fill compress (ch i j) = .ok (blk i j) := by
  obtain ⟨-, -, f, hf, hch⟩ := build_node h
  obtain ⟨blk, e, hb⟩ := toMat_node (fun i hi j hj => by
    rw [build_info (hch i hi j hj)]; simp [childInfo]) hM
  exact ⟨f, blk, hf, e, fun i hi j hj => ⟨hch i hi j hj, hb i hi j hj⟩⟩

section
variable [CommRing R] {a : Admis K} {fill : FillFn R} {compress : Dense R → Except Err (LowRank R)}
  (hcomp : ∀ d l, compress d = .ok l → l.WF ∧ l.dim0 = d.rows ∧ l.dim1 = d.cols)
  (hfill : ∀ rows cols d, fill rows cols = .ok d → (d.rows : Int) = rows.n ∧ (d.cols : Int) = cols.n)
include hcomp hfill

theorem childBlock_dims {fuel : Nat} {t : NodeInfo} {c : ClusterTree} {X : Mat R}
    (hbu : build fuel false t = .ok c) (hbr : 1 ≤ t.br) (hbc : 1 ≤ t.bc)
    (h : childBlock a fill compress c = .ok X) :
    X.WF ∧ (X.nRows : Int) = t.rows.n ∧ (X.nCols : Int) = t.cols.n := by
  rcases childBlock_cases hbu h with ⟨d, l, -, hd, hl, rfl⟩ | ⟨d, -, -, hd, rfl⟩ | ⟨ch, -, -, rfl, hM⟩
  · obtain ⟨w, e0, e1⟩ := hcomp d l hl
    obtain ⟨f0, f1⟩ := hfill _ _ _ hd
    exact ⟨w, by show (l.dim0 : Int) = _; omega, by show (l.dim1 : Int) = _; omega⟩
  · obtain ⟨f0, f1⟩ := hfill _ _ _ hd
    exact ⟨trivial, f0, f1⟩
  · obtain ⟨w, -, h0, h1, -⟩ := toMat_spec hcomp hfill hbu hbr hbc hM
    exact ⟨w, h0, h1⟩

/-- Constructed matrices are regular, and their low-rank blocks are those the
compressor returned. -/
theorem toMat_regular {b : Nat} (hb : 1 ≤ b) {Q : LowRank R → Prop} (hQ : ∀ d l, compress d = .ok l → Q l)
    {fuel : Nat} {isRoot : Bool} {t : NodeInfo} {ch : Nat → Nat → ClusterTree} {M : Mat R}
    (h : build fuel isRoot t = .ok (.node t ch)) (hbr : t.br = b) (hbc : t.bc = b)
    (hM : toMat a fill compress (.node t ch) = .ok M) : M.Regular b ∧ M.All Q ∧ M.depth ≤ fuel := by
  induction fuel generalizing isRoot t ch M with
  | zero => simp [build] at h
  | succ fu ih =>
    obtain ⟨wf, -, h0, h1, -⟩ := toMat_spec hcomp hfill h (by omega) (by omega) hM
    obtain ⟨f, blk, hf, rfl, hc⟩ := toMat_level h hM
    obtain rfl : f = fu := by omega
    have key : ∀ i < t.br, ∀ j < t.bc, (blk i j).Regular b ∧ (blk i j).All Q ∧ (blk i j).depth ≤ f := by
      intro i hi j hj
      obtain ⟨hbu, hcb⟩ := hc i hi j hj
      rcases childBlock_cases hbu hcb with ⟨d, l, -, hd, hl, e⟩ | ⟨d, -, -, hd, e⟩ | ⟨ch', -, -, e, hM'⟩
      · rw [e]
        exact ⟨⟨(hcomp d l hl).1, trivial, trivial⟩, hQ d l hl, Nat.zero_le _⟩
      · rw [e]
        exact ⟨⟨trivial, trivial, trivial⟩, trivial, Nat.zero_le _⟩
      · rw [e] at hbu
        exact ih hbu hbr hbc hM'
    have dims := fun i hi j hj => childBlock_dims hcomp hfill (hc i hi j hj).1 (by show 1 ≤ t.br; omega)
      (by show 1 ≤ t.bc; omega) (hc i hi j hj).2
    have wf' := wf
    simp only [Mat.WF] at wf'
    rw [Mat.nRows] at h0
    rw [Mat.nCols] at h1
    refine ⟨⟨wf, fun i hi j hj => ⟨(key i hi j hj).1.even, ?_, ?_⟩, hbr, hbc, fun i hi j hj => (key i hi j hj).1.sub⟩,
      fun i hi j hj => (key i hi j hj).2.1, ?_⟩
    · rw [h0]
      exact (dims i hi j hj).2.1
    · rw [h1]
      exact (dims i hi j hj).2.2
    · simp only [Mat.depth]
      have : ((range t.br).sup fun i => (range t.bc).sup fun j => (blk i j).depth) ≤ f :=
        Finset.sup_le (fun i hi => Finset.sup_le (fun j hj =>
          (key i (Finset.mem_range.1 hi) j (Finset.mem_range.1 hj)).2.2))
      omega

theorem childBlock_regular {b : Nat} (hb : 1 ≤ b) {fuel : Nat} {t : NodeInfo} {c : ClusterTree} {X : Mat R}
    (hbu : build fuel false t = .ok c) (hbr : t.br = b) (hbc : t.bc = b)
    (h : childBlock a fill compress c = .ok X) : X.Regular b := by
  rcases childBlock_cases hbu h with ⟨d, l, -, hd, hl, rfl⟩ | ⟨d, -, -, hd, rfl⟩ | ⟨ch', -, -, rfl, hM'⟩
  · exact ⟨(hcomp d l hl).1, trivial, trivial⟩
  · exact ⟨trivial, trivial, trivial⟩
  · exact (toMat_regular hcomp hfill hb (Q := fun _ => True) (fun _ _ _ => trivial) hbu hbr hbc hM').1

variable {nleaf : Int} {b : Nat} {root : Int} {P : Int → Prop} {G : Int → Int → Prop}

/-- A diagonal block and a block beside it that is not refined further. -/
theorem built_solvable (hb : 1 ≤ b) (hd : DiagNever a) (hr : SizeRule a nleaf b root P G) (hn : nleaf ≠ 0)
    {uplo : Uplo} {side : Side} (hs1 : ¬(uplo = .lower ∧ side = .right)) (hs2 : ¬(uplo = .upper ∧ side = .left))
    {f f' : Nat} {d t : NodeInfo} {D B : ClusterTree} {X Y : Mat R}
    (hD : build f false d = .ok D) (hB : build f' false t = .ok B)
    (hX : childBlock a fill compress D = .ok X) (hY : childBlock a fill compress B = .ok Y)
    (d1 : d.br = b) (d2 : d.bc = b) (t1 : t.br = b) (t2 : t.bc = b) (dn : d.nleaf = nleaf) (tn : t.nleaf = nleaf)
    (dr : d.rows = d.cols) (da : d.absRow = d.absCol)
    (hsz : side.pick t.rows.n t.cols.n = d.rows.n)
    (hG : isAdmissible a t = .ok true ∨ G (side.pick t.cols.n t.rows.n) d.rows.n) :
    Mat.Solvable b uplo side X Y := by
  induction f' generalizing f d t D B X Y with
  | zero => simp [build] at hB
  | succ f' ih =>
    have hX' : (∃ x, X = .dense x ∧ isLeaf d = true) ∨ ∃ ch, isLeaf d = false ∧ D = .node d ch ∧
        toMat a fill compress (.node d ch) = .ok X := by
      rcases childBlock_cases hD hX with ⟨_, _, h, -⟩ | ⟨x, -, h, -, e⟩ | ⟨ch, -, h, e, hM⟩
      · exact absurd h (hd d dr da)
      · exact Or.inl ⟨x, e, h⟩
      · exact Or.inr ⟨ch, h, e, hM⟩
    have hXk : (∃ x, X = .dense x) ∨ ∃ A, X = .hier b b A := by
      rcases hX' with ⟨x, e, -⟩ | ⟨ch, -, e, hM⟩
      · exact Or.inl ⟨x, e⟩
      · rw [e] at hD
        obtain ⟨_, blk, -, e, -⟩ := toMat_level hD hM
        exact Or.inr ⟨blk, by rw [e, d1, d2]⟩
    rcases childBlock_cases hB hY with ⟨_, l, -, -, -, rfl⟩ | ⟨y, -, -, -, rfl⟩ | ⟨chB, hadm, hl, rfl, hMB⟩
    · rcases hXk with ⟨x, rfl⟩ | ⟨A, rfl⟩
      · trivial
      · exact hs1
    · rcases hXk with ⟨x, rfl⟩ | ⟨A, rfl⟩
      · trivial
      · exact hs1
    · have hG : G (side.pick t.cols.n t.rows.n) d.rows.n := by
        rcases hG with h | h
        · rw [h] at hadm; cases hadm
        · exact h
      have tl : ¬(t.rows.n ≤ nleaf ∧ t.cols.n ≤ nleaf) := by
        intro h
        simp [isLeaf, tn, h.1, h.2] at hl
      have big : nleaf < d.rows.n := by
        by_contra hle
        have := hr.leaf _ _ hG (by omega)
        refine tl ?_
        cases side <;> simp only [Side.pick] at this hsz <;> omega
      rcases hX' with ⟨x, -, h⟩ | ⟨chD, -, rfl, hMD⟩
      · simp only [isLeaf, dn, Bool.or_eq_true, Bool.and_eq_true, decide_eq_true_eq] at h
        omega
      · have nn := toMat_nonneg (fun rows cols x hx => by
          obtain ⟨h1, h2⟩ := hfill rows cols x hx
          constructor <;> omega) hB (by omega) (by omega) hMB
        obtain ⟨fD, A, -, rfl, hA⟩ := toMat_level hD hMD
        obtain ⟨fB, Z, hfB, rfl, hZ⟩ := toMat_level hB hMB
        obtain rfl : f' = fB := by omega
        rw [d1, d2] at hA
        rw [t1, t2] at hZ
        refine ⟨hs1, fun h => absurd h hs2, by cases side <;> simp [Side.pick, d1, t1, t2], ?_⟩
        intro i hi j hj
        rw [t1] at hi
        rw [t2] at hj
        have hp : side.pick i j < b := by cases side <;> simpa [Side.pick]
        obtain ⟨hbu, hcb⟩ := hZ i hi j hj
        obtain ⟨hbd, hcd⟩ := hA _ hp _ hp
        refine ⟨childBlock_regular hcomp hfill hb hbu t1 t2 hcb, ?_⟩
        refine ih hbd hbu hcd hcb d1 d2 t1 t2 dn tn ?_ ?_ ?_ (Or.inr ?_)
        · simp only [childInfo, dr, d1, d2]
        · simp only [childInfo, da, d1, d2]
        · simp only [childInfo, partSize_eq, d1, t1, t2, ← hsz]
          cases side <;> rfl
        · have := hr.part _ _ hG (by cases side <;> simp only [Side.pick] <;> omega) (by
            cases side <;> simp only [Side.pick] at hsz <;> omega) big (side.pick j i)
            (by cases side <;> simpa [Side.pick]) (side.pick i j) hp
          simp only [childInfo, partSize_eq, d1, t1, t2]
          cases side <;> exact this

/-- LU factorization applies to the matrices built on such sizes. -/
theorem built_lu (hb : 1 ≤ b) (hd : DiagNever a) (hr : SizeRule a nleaf b root P G) (hn : nleaf ≠ 0)
    {f : Nat} {isRoot : Bool} {d : NodeInfo} {ch : Nat → Nat → ClusterTree} {M : Mat R}
    (hD : build f isRoot d = .ok (.node d ch)) (hM : toMat a fill compress (.node d ch) = .ok M)
    (d1 : d.br = b) (d2 : d.bc = b) (dn : d.nleaf = nleaf) (dr : d.rows = d.cols) (da : d.absRow = d.absCol)
    (hroot : isRoot = true → d.rows.n = root) (hP : P d.rows.n) : M.LuSolvable b := by
  induction f generalizing isRoot d ch M with
  | zero => simp [build] at hD
  | succ f ih =>
    have nn := toMat_nonneg (fun rows cols x hx => by
      obtain ⟨h1, h2⟩ := hfill rows cols x hx
      constructor <;> omega) hD (by omega) (by omega) hM
    have big : nleaf < d.rows.n ∨ d.rows.n = root := by
      rcases (build_node hD).2.1 with h | h
      · exact Or.inr (hroot h)
      · left
        simp only [isLeaf, dn, Bool.or_eq_false_iff, Bool.and_eq_false_iff, decide_eq_false_iff_not, ← dr] at h
        omega
    obtain ⟨f', A, hf, rfl, hA⟩ := toMat_level hD hM
    obtain rfl : f = f' := by omega
    rw [d1, d2] at hA
    refine ⟨by rw [d1, d2], fun i hi => ?_, fun i hi k hk hik => ?_⟩
    · rw [d1] at hi
      obtain ⟨hbu, hcb⟩ := hA i hi i hi
      rcases childBlock_cases hbu hcb with ⟨_, _, h, -⟩ | ⟨x, -, h, hx, e⟩ | ⟨ch', -, h, e, hM'⟩
      · exact absurd h (hd _ (by simp only [childInfo, dr, d1, d2]) (by simp only [childInfo, da, d1, d2]))
      · rw [e]
        have := hfill _ _ _ hx
        simp only [childInfo, dr, d1, d2] at this
        show x.rows = x.cols
        omega
      · rw [e] at hbu
        refine ih hbu hM' d1 d2 dn (by simp only [childInfo, dr, d1, d2]) (by simp only [childInfo, da, d1, d2])
          (fun h => (nomatch h)) ?_
        simp only [childInfo, partSize_eq, d1]
        exact hr.diag _ hP nn.1 big i hi
    · rw [d1] at hi hk
      obtain ⟨hbd, hcd⟩ := hA i hi i hi
      constructor
      · obtain ⟨hbu, hcb⟩ := hA k hk i hi
        refine built_solvable hcomp hfill hb hd hr hn (by simp) (by simp) hbd hbu hcd hcb d1 d2 d1 d2 dn dn
          (by simp only [childInfo, dr, d1, d2]) (by simp only [childInfo, da, d1, d2]) ?_ ?_
        · simp only [childInfo, dr, d1, d2, Side.pick]
        · have := hr.off _ hP nn.1 big i k hik hk .right (childInfo d k i)
            (by simp only [childInfo, da, d1, d2]; omega)
            (by simp only [childInfo, ← dr, d2, Side.pick, partSize_eq])
            (by simp only [childInfo, d1, Side.pick, partSize_eq])
          simpa only [childInfo, ← dr, d1, Side.pick, partSize_eq] using this
      · obtain ⟨hbu, hcb⟩ := hA i hi k hk
        refine built_solvable hcomp hfill hb hd hr hn (by simp) (by simp) hbd hbu hcd hcb d1 d2 d1 d2 dn dn
          (by simp only [childInfo, dr, d1, d2]) (by simp only [childInfo, da, d1, d2]) ?_ ?_
        · simp only [childInfo, Side.pick]
        · have := hr.off _ hP nn.1 big i k hik hk .left (childInfo d i k)
            (by simp only [childInfo, da, d1, d2]; omega)
            (by simp only [childInfo, d1, Side.pick, partSize_eq])
            (by simp only [childInfo, ← dr, d2, Side.pick, partSize_eq])
          simpa only [childInfo, ← dr, d1, d2, Side.pick, partSize_eq] using this

end

/-! ### sizes -/

theorem diagNever_position {admis : Int} (h : 0 ≤ admis) : DiagNever (Admis.position admis : Admis K) := by
  intro t _ ha h'
  simp only [isAdmissible, distToDiag, ha] at h'
  have := Except.ok.inj h'
  simp at this
  omega

theorem boxes_diag {params : List (List K)} {r : IndexRange} {bs : List ((K × K) × (K × K))}
    (h : boxes params r r = .ok bs) : ∀ b ∈ bs, b.1 = b.2 := by
  induction params generalizing bs with
  | nil => cases h; simp
  | cons p ps ih =>
    simp only [boxes, List.mapM_cons, except_bind_eq_ok] at h
    obtain ⟨x, ⟨c, hc, y, hy, c', hc', z, hz, hx⟩, tl, htl, h⟩ := h
    cases h
    cases hx
    rw [hc] at hc'
    cases hc'
    rw [hy] at hz
    cases hz
    intro b hb
    rcases List.mem_cons.1 hb with rfl | hb
    · rfl
    · exact ih htl b hb

theorem boxFold_diag [IsStrictOrderedRing K] (bs : List ((K × K) × (K × K))) (h : ∀ b ∈ bs, b.1 = b.2) : (boxFold bs).2.2 = 0 := by
  unfold boxFold
  suffices H : ∀ s : K × K × K, s.2.2 = 0 → (bs.foldl (fun (s : K × K × K) b =>
      (max s.1 (b.1.2 - b.1.1), max s.2.1 (b.2.2 - b.2.1),
       s.2.2 + |center b.1 - center b.2| * |center b.1 - center b.2|)) s).2.2 = 0 from H _ rfl
  induction bs with
  | nil => exact fun s hs => hs
  | cons b bs ih =>
    intro s hs
    rw [List.foldl_cons]
    refine ih (fun x hx => h x (List.mem_cons_of_mem _ hx)) _ ?_
    simp only [hs, h b List.mem_cons_self, sub_self, abs_zero, mul_zero, add_zero]

theorem diagNever_geometry [IsStrictOrderedRing K] (admis : K) (params : List (List K)) :
    DiagNever (Admis.geometry admis params) := by
  intro t hr _ h
  simp only [isAdmissible, hr, except_bind_eq_ok] at h
  obtain ⟨bs, hbs, h⟩ := h
  rw [boxFold_diag bs (boxes_diag hbs)] at h
  have := Except.ok.inj h
  simp only [Bool.and_eq_true, decide_eq_true_eq] at this
  have h2 := this.2
  have := mul_self_nonneg (admis * max (boxFold bs).1 (boxFold bs).2.1)
  nlinarith

theorem partSize_mul {c : Int} (hc : 0 ≤ c) {b i : Nat} (hi : i < b) : partSize (c * b) b i = c := by
  have hb : (1 : Int) ≤ b := by omega
  have e : Int.tdiv (c * b + b - 1) b = c := by
    rw [Int.tdiv_eq_ediv_of_nonneg (by nlinarith [mul_nonneg hc (by omega : (0 : Int) ≤ b)])]
    rw [show c * (b : Int) + b - 1 = (b - 1) + c * b by ring, Int.add_mul_ediv_right _ _ (by omega),
      Int.ediv_eq_zero_of_lt (by omega) (by omega), zero_add]
  simp only [partSize, IndexRange.splitChild, e]
  split
  · ring
  · rfl

/-- Sizes that divide evenly down to the leaves. -/
theorem sizeRule_uniform (a : Admis K) {nleaf n0 : Int} {b L : Nat} (h0 : 0 ≤ n0) (hl : n0 ≤ nleaf) (hL : 1 ≤ L)
    (hb : 2 ≤ b) : SizeRule a nleaf b (n0 * b ^ L) (fun n => ∃ l : Nat, n = n0 * b ^ l)
      (fun m s => m = s ∧ ∃ l : Nat, s = n0 * b ^ l) := by
  have hp : ∀ l : Nat, (0 : Int) ≤ n0 * b ^ l := fun l => mul_nonneg h0 (by positivity)
  have key : ∀ n, (∃ l : Nat, n = n0 * (b : Int) ^ l) → nleaf < n ∨ n = n0 * b ^ L →
      ∃ l : Nat, ∀ i < b, partSize n b i = n0 * b ^ l := by
    rintro n ⟨l, rfl⟩ h
    obtain ⟨m, hm⟩ : ∃ m : Nat, n0 * (b : Int) ^ l = n0 * b ^ m * b := by
      rcases h with h | h
      · cases l with
        | zero => simp at h; omega
        | succ l => exact ⟨l, by rw [pow_succ, mul_assoc]⟩
      · obtain ⟨m, rfl⟩ : ∃ m, L = m + 1 := ⟨L - 1, by omega⟩
        exact ⟨m, by rw [h, pow_succ, mul_assoc]⟩
    exact ⟨m, fun i hi => by rw [hm, partSize_mul (hp m) hi]⟩
  refine ⟨⟨L, rfl⟩, fun m s h hs => by omega, ?_, ?_, ?_⟩
  · rintro m s ⟨rfl, hs⟩ _ _ hlt i hi j hj
    obtain ⟨l, e⟩ := key m hs (Or.inl hlt)
    exact ⟨by rw [e i hi, e j hj], l, e j hj⟩
  · intro n hn _ h i hi
    obtain ⟨l, e⟩ := key n hn h
    exact ⟨l, e i hi⟩
  · intro n hn _ h i k hik hk side t _ _ _
    obtain ⟨l, e⟩ := key n hn h
    exact Or.inr ⟨by rw [e i (by omega), e k hk], l, e i (by omega)⟩

theorem partSize_le {n : Int} (hn : 0 ≤ n) {b i k : Nat} (hik : i < k) (hk : k < b) :
    partSize n b k ≤ partSize n b i := by
  simp only [partSize, IndexRange.splitChild]
  rw [if_neg (by omega : ¬ (i : Int) = b - 1)]
  split
  · rw [Int.tdiv_eq_ediv_of_nonneg (by omega)]
    have h1 := Int.emod_add_mul_ediv (n + b - 1) b
    have h2 := Int.emod_lt_of_pos (n + b - 1) (by omega : (0 : Int) < b)
    generalize (n + b - 1) / (b : Int) = c at *
    have : c * ((b : Int) - 1) = b * c - c := by ring
    omega
  · exact le_rfl

theorem partSize_le_one {m : Int} (h0 : 0 ≤ m) (hm : m ≤ 1) {b i : Nat} (hi : i < b) : partSize m b i ≤ 1 := by
  rcases (by omega : m = 0 ∨ m = 1) with rfl | rfl
  · have := partSize_mul (c := 0) le_rfl hi
    rw [zero_mul] at this
    omega
  · have e : Int.tdiv (1 + b - 1) (b : Int) = 1 := by
      rw [show (1 : Int) + b - 1 = b by ring]
      exact Int.tdiv_self (by omega)
    simp only [partSize, IndexRange.splitChild, e]
    split <;> omega

/-- Every off-diagonal block with more than one row and column is admissible. -/
theorem sizeRule_weak {nleaf root : Int} (hl : 1 ≤ nleaf) (b : Nat) :
    SizeRule (Admis.position 0 : Admis K) nleaf b root (fun _ => True) (fun m _ => m ≤ 1) := by
  refine ⟨trivial, fun m s h _ => by omega, fun m s h h0 _ _ i hi _ _ => partSize_le_one h0 h hi,
    fun _ _ _ _ _ _ => trivial, ?_⟩
  intro n _ h0 _ i k hik hk side t ha hs hm
  by_cases h : partSize n b k ≤ 1
  · exact Or.inr h
  · left
    have := partSize_le h0 hik hk
    have hd : 0 < distToDiag t := by
      simp only [distToDiag]
      omega
    have h12 : 1 < t.rows.n ∧ 1 < t.cols.n := by
      cases side <;> simp only [Side.pick] at hs hm <;> omega
    simp [isAdmissible, h12, hd]

end ClusterTree
end Verif
