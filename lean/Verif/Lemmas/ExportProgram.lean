import Verif.Model.ExportProgram
import Verif.Spec.ExportProgram
import Verif.Lemmas.Construct
import Verif.Lemmas.Blr
import Verif.Props.Construct
import Verif.Props.Export

/-
Structure of the matrix built on a cluster tree, path by path.
-/

namespace Verif
open Finset
variable {K : Type} [Field K] [LinearOrder K] {R : Type}

namespace ClusterTree

/-- The members of the node at the end of a path. -/
def infoAt (t : NodeInfo) : List (Nat × Nat) → NodeInfo
  | [] => t
  | a :: p => infoAt (childInfo t a.1 a.2) p

/-- What the block of a node is. -/
def IsBlock (a : Admis K) (fill : FillFn R) (compress : Dense R → Except Err (LowRank R)) (s : NodeInfo) (B : Mat R) :
    Prop :=
  (isAdmissible a s = .ok true ∧ ∃ d l, fill s.rows s.cols = .ok d ∧ compress d = .ok l ∧ B = .lowRank l) ∨
  (isAdmissible a s = .ok false ∧ isLeaf s = true ∧ ∃ d, fill s.rows s.cols = .ok d ∧ B = .dense d) ∨
  (isAdmissible a s = .ok false ∧ isLeaf s = false ∧ (∃ blk, B = .hier s.br s.bc blk) ∧
    ∃ fuel isRoot ch, build fuel isRoot s = .ok (.node s ch) ∧ toMat a fill compress (.node s ch) = .ok B)

theorem blockPath_nil {A B : Mat R} {gs : List (Nat × Nat)} (h : BlockPath A [] gs B) : B = A := by
  cases h
  rfl

theorem toMat_paths {a : Admis K} {fill : FillFn R} {compress : Dense R → Except Err (LowRank R)}
    {fuel : Nat} {isRoot : Bool} {t : NodeInfo} {ch : Nat → Nat → ClusterTree} {M : Mat R}
    (h : build fuel isRoot t = .ok (.node t ch)) (hM : toMat a fill compress (.node t ch) = .ok M)
    {p gs : List (Nat × Nat)} {B : Mat R} (hp : BlockPath M p gs B) :
    gs = List.replicate p.length (t.br, t.bc) ∧ (∀ x ∈ p, x.1 < t.br ∧ x.2 < t.bc) ∧
      (p = [] → ∃ blk, B = .hier t.br t.bc blk) ∧ (p ≠ [] → IsBlock a fill compress (infoAt t p) B) := by
  induction fuel generalizing isRoot t ch M p gs with
  | zero => simp [build] at h
  | succ fu ih =>
    obtain ⟨-, -, f', hf', hch⟩ := build_node h
    obtain rfl : f' = fu := by omega
    have hinfo : ∀ i < t.br, ∀ j < t.bc, (ch i j).info = childInfo t i j :=
      fun i hi j hj => build_info (hch i hi j hj)
    obtain ⟨blk, rfl, hblk⟩ := toMat_node (fun i hi j hj => by
      rw [hinfo i hi j hj]; simp [childInfo]) hM
    cases hp with
    | here => exact ⟨rfl, by simp, fun _ => ⟨_, rfl⟩, fun h => absurd rfl h⟩
    | @step _ _ _ i j p gs _ hi hj hp =>
      have hb := hblk i hi j hj
      have hin := hinfo i hi j hj
      have hbu := hch i hi j hj
      rw [childBlock, except_bind_eq_ok] at hb
      obtain ⟨adm, hadm, hb⟩ := hb
      rw [hin] at hadm hb
      have leafCase : (∀ br bc bl, blk i j ≠ .hier br bc bl) → IsBlock a fill compress (childInfo t i j) (blk i j) →
          (i, j) :: p ≠ [] → (t.br, t.bc) :: gs = List.replicate ((i, j) :: p).length (t.br, t.bc) ∧
          (∀ x ∈ (i, j) :: p, x.1 < t.br ∧ x.2 < t.bc) ∧ ((i, j) :: p = [] → ∃ blk, B = .hier t.br t.bc blk) ∧
          ((i, j) :: p ≠ [] → IsBlock a fill compress (infoAt t ((i, j) :: p)) B) := by
        intro hne hI _
        generalize blk i j = b at hp hne hI
        cases hp with
        | here => exact ⟨rfl, by simpa using ⟨hi, hj⟩, fun h => (nomatch h), fun _ => hI⟩
        | step => exact absurd rfl (hne _ _ _)
      cases adm with
      | true =>
        simp only [if_true, except_bind_eq_ok] at hb
        obtain ⟨d, hd, l, hl, hb⟩ := hb
        have e := (Except.ok.inj hb).symm
        exact leafCase (by rw [e]; exact fun _ _ _ h => (nomatch h)) (Or.inl ⟨hadm, d, l, hd, hl, e⟩) (by simp)
      | false =>
        simp only [Bool.false_eq_true, if_false] at hb
        split at hb
        · rename_i hl
          rw [except_bind_eq_ok] at hb
          obtain ⟨d, hd, hb⟩ := hb
          have e := (Except.ok.inj hb).symm
          exact leafCase (by rw [e]; exact fun _ _ _ h => (nomatch h)) (Or.inr (Or.inl ⟨hadm, hl, d, hd, e⟩)) (by simp)
        · rename_i hnl
          cases hx : ch i j with
          | leaf s =>
            rw [hx] at hb
            exact absurd hb (by simp [toMat])
          | node s ch' =>
            rw [hx] at hbu hb
            obtain rfl := (build_node hbu).1
            obtain ⟨g1, g2, g3, g4⟩ := ih hbu hb hp
            refine ⟨by rw [g1]; rfl, ?_, fun h => (nomatch h), fun _ => ?_⟩
            · intro x hx'
              rcases List.mem_cons.1 hx' with rfl | hx'
              · exact ⟨hi, hj⟩
              · exact g2 x hx'
            · by_cases hp0 : p = []
              · obtain ⟨bl, hbl⟩ := g3 hp0
                subst hp0
                have hB : B = blk i j := blockPath_nil hp
                exact Or.inr (Or.inr ⟨hadm, by simpa [infoAt] using hnl, ⟨bl, hbl⟩, _, _, ch', hbu, by rw [hB]; exact hb⟩)
              · exact g4 hp0

/-- Only blocks with more than one row and column are compressed. -/
theorem toMat_compress_congr {a : Admis K} {fill : FillFn R} {c1 c2 : Dense R → Except Err (LowRank R)}
    (hfill : ∀ rows cols d, fill rows cols = .ok d → (d.rows : Int) = rows.n ∧ (d.cols : Int) = cols.n)
    (hc : ∀ d : Dense R, 1 < d.rows → 1 < d.cols → c1 d = c2 d) (tr : ClusterTree) :
    toMat a fill c1 tr = toMat a fill c2 tr := by
  induction tr with
  | leaf => rfl
  | node t ch ih =>
    rw [toMat, toMat]
    congr 1
    apply loop_congr
    intro i hi s
    apply loop_congr
    intro j hj s
    congr 1
    cases hadm : isAdmissible a (ch i j).info with
    | error e => rfl
    | ok adm =>
      simp only [except_bind_ok]
      cases adm with
      | true =>
        simp only [if_true]
        cases hd : fill (ch i j).info.rows (ch i j).info.cols with
        | error e => rfl
        | ok d =>
          simp only [except_bind_ok]
          obtain ⟨h1, h2⟩ := hfill _ _ _ hd
          have : 1 < (ch i j).info.rows.n ∧ 1 < (ch i j).info.cols.n := by
            cases a with
            | position x =>
              simp only [isAdmissible, Except.ok.injEq, Bool.and_eq_true, decide_eq_true_eq] at hadm
              exact hadm.1
            | geometry x y =>
              simp only [isAdmissible, except_bind_eq_ok, Except.ok.injEq, Bool.and_eq_true, decide_eq_true_eq] at hadm
              obtain ⟨-, -, h, -⟩ := hadm
              exact h
          rw [hc d (by omega) (by omega)]
      | false => simp only [Bool.false_eq_true, if_false, ih i j]

/-- One half of a range. -/
theorem splitChild_half (st : Int) (n : Nat) (i : Nat) :
    (⟨st, n⟩ : IndexRange).splitChild 2 i = if i = 0 then ⟨st, ((n + 1) / 2 : Nat)⟩ else
      if i = 1 then ⟨st + ((n + 1) / 2 : Nat), (n / 2 : Nat)⟩ else (⟨st, n⟩ : IndexRange).splitChild 2 i := by
  have e : Int.tdiv ((n : Int) + 2 - 1) 2 = ((n + 1) / 2 : Nat) := by
    rw [show ((n : Int) + 2 - 1) = ((n + 1 : Nat) : Int) by push_cast; ring, Int.tdiv_eq_ediv_of_nonneg (by omega)]
    rfl
  split
  · rename_i h
    subst h
    simp only [IndexRange.splitChild, e]
    simp
  · split
    · rename_i h
      subst h
      simp only [IndexRange.splitChild, e]
      simp
      omega
    · rfl

theorem infoAt_half (t : NodeInfo) (hbr : t.br = 2) (hbc : t.bc = 2) {m n : Nat} (hm : t.rows.n = m) (hn : t.cols.n = n)
    (p : List (Nat × Nat)) (hp : ∀ x ∈ p, x.1 < 2 ∧ x.2 < 2) :
    (infoAt t p).rows = ⟨t.rows.start + (halving m (p.map Prod.fst)).1, (halving m (p.map Prod.fst)).2⟩ ∧
    (infoAt t p).cols = ⟨t.cols.start + (halving n (p.map Prod.snd)).1, (halving n (p.map Prod.snd)).2⟩ ∧
    (infoAt t p).nleaf = t.nleaf ∧ (infoAt t p).br = 2 ∧ (infoAt t p).bc = 2 ∧
    (infoAt t p).absRow = (p.map Prod.fst).foldl (fun (x : Int) (d : Nat) => 2 * x + d) t.absRow ∧
    (infoAt t p).absCol = (p.map Prod.snd).foldl (fun (x : Int) (d : Nat) => 2 * x + d) t.absCol := by
  induction p generalizing t m n with
  | nil =>
    obtain ⟨⟨rs, rn⟩, ⟨cs, cn⟩, _, _, _, _, _, _, _, _⟩ := t
    simp only at hm hn hbr hbc
    subst hm hn hbr hbc
    simp [infoAt, halving]
  | cons x p ih =>
    obtain ⟨i, j⟩ := x
    obtain ⟨hi, hj⟩ := hp (i, j) (by simp)
    simp only at hi hj
    have hp' : ∀ x ∈ p, x.1 < 2 ∧ x.2 < 2 := fun x hx => hp x (List.mem_cons_of_mem _ hx)
    have er : (childInfo t i j).rows = (⟨t.rows.start, (m : Int)⟩ : IndexRange).splitChild 2 i := by
      simp only [childInfo, hbr, ← hm]
      rfl
    have ec : (childInfo t i j).cols = (⟨t.cols.start, (n : Int)⟩ : IndexRange).splitChild 2 j := by
      simp only [childInfo, hbc, ← hn]
      rfl
    rw [splitChild_half] at er ec
    obtain ⟨h1, h2, h3, h4, h5, h6, h7⟩ := ih (childInfo t i j) hbr hbc
      (m := if i = 0 then (m + 1) / 2 else m / 2) (n := if j = 0 then (n + 1) / 2 else n / 2)
      (by rw [er]; split <;> [rfl; (rw [if_pos (by omega)])]) (by rw [ec]; split <;> [rfl; (rw [if_pos (by omega)])]) hp'
    refine ⟨?_, ?_, h3, h4, h5, ?_, ?_⟩
    · rw [infoAt, h1, er]
      rcases (show i = 0 ∨ i = 1 by omega) with rfl | rfl
      · simp [halving]
      · simp [halving, add_assoc]
    · rw [infoAt, h2, ec]
      rcases (show j = 0 ∨ j = 1 by omega) with rfl | rfl
      · simp [halving]
      · simp [halving, add_assoc]
    · rw [infoAt, h6]
      simp only [childInfo, hbr, List.map_cons, List.foldl_cons]
      congr 1
      push_cast
      ring
    · rw [infoAt, h7]
      simp only [childInfo, hbc, List.map_cons, List.foldl_cons]
      congr 1
      push_cast
      ring

end ClusterTree

theorem foldl_binary (p : List Nat) (x : Nat) :
    p.foldl (fun (x : Int) (d : Nat) => 2 * x + d) (x : Int) = (p.foldl (fun x d => 2 * x + d) x : Nat) := by
  induction p generalizing x with
  | nil => rfl
  | cons d p ih =>
    rw [List.foldl_cons, List.foldl_cons, ← ih]
    push_cast
    rfl

theorem mixedRadix_two (p : List Nat) (x : Nat) :
    p.foldl (fun x d => 2 * x + d) x = x * 2 ^ p.length + mixedRadix p (List.replicate p.length 2) := by
  induction p generalizing x with
  | nil => simp [mixedRadix]
  | cons d p ih =>
    rw [List.foldl_cons, ih, List.length_cons, List.replicate_succ, mixedRadix, List.prod_replicate, pow_succ]
    ring

theorem absPos_two (p : List (Nat × Nat)) :
    absPos p (List.replicate p.length (2, 2)) = (binary (p.map Prod.fst), binary (p.map Prod.snd)) := by
  have h1 := mixedRadix_two (p.map Prod.fst) 0
  have h2 := mixedRadix_two (p.map Prod.snd) 0
  simp only [List.length_map, Nat.zero_mul, Nat.zero_add] at h1 h2
  simp only [absPos, List.map_replicate, binary, h1, h2]

/-- Part of the indices. -/
theorem halving_le (n : Nat) (p : List Nat) : (halving n p).1 + (halving n p).2 ≤ n := by
  induction p generalizing n with
  | nil => simp [halving]
  | cons d p ih =>
    cases d with
    | zero =>
      have := ih ((n + 1) / 2)
      simp only [halving]
      omega
    | succ d =>
      have := ih (n / 2)
      simp only [halving]
      omega

/-- The leaves of a binary grid of grids cover all pairs of indices exactly once. -/
theorem JsonNode.cover (J : JsonNode R) (hJ : ∀ p f br bc ch, JsonPath J p (.node f br bc ch) → br = 2 ∧ bc = 2)
    {m n i j : Nat} (hi : i < m) (hj : j < n) :
    ∃! p, (∃ f, JsonPath J p (.leaf f)) ∧
      (halving m (p.map Prod.fst)).1 ≤ i ∧ i < (halving m (p.map Prod.fst)).1 + (halving m (p.map Prod.fst)).2 ∧
      (halving n (p.map Prod.snd)).1 ≤ j ∧ j < (halving n (p.map Prod.snd)).1 + (halving n (p.map Prod.snd)).2 := by
  induction J generalizing m n i j with
  | leaf f =>
    refine ⟨[], ⟨⟨f, .here _⟩, by simp [halving], by simpa [halving] using hi, by simp [halving],
      by simpa [halving] using hj⟩, ?_⟩
    rintro p ⟨⟨f', hp⟩, -⟩
    cases hp
    rfl
  | node f br bc ch ih =>
    obtain ⟨rfl, rfl⟩ := hJ [] f br bc ch (.here _)
    -- the half that holds an index
    have half : ∀ {n i : Nat}, i < n → ∃ a < 2, ∃ n' i', i' < n' ∧ (∀ q, (halving n' q).1 ≤ i' ∧
        i' < (halving n' q).1 + (halving n' q).2 ↔ (halving n (a :: q)).1 ≤ i ∧
        i < (halving n (a :: q)).1 + (halving n (a :: q)).2) ∧
        ∀ a' q, (halving n (a' :: q)).1 ≤ i → i < (halving n (a' :: q)).1 + (halving n (a' :: q)).2 → a' < 2 → a' = a := by
      intro n i hi
      by_cases h : i < (n + 1) / 2
      · refine ⟨0, by omega, (n + 1) / 2, i, h, fun q => Iff.rfl, fun a' q h1 h2 h3 => ?_⟩
        rcases (show a' = 0 ∨ a' = 1 by omega) with rfl | rfl
        · rfl
        · simp only [halving] at h1
          omega
      · refine ⟨1, by omega, n / 2, i - (n + 1) / 2, by omega, fun q => ?_, fun a' q h1 h2 h3 => ?_⟩
        · simp only [halving]
          omega
        · rcases (show a' = 0 ∨ a' = 1 by omega) with rfl | rfl
          · have := halving_le ((n + 1) / 2) q
            simp only [halving] at h2
            omega
          · rfl
    obtain ⟨a, ha, m', i', hi', ea, ua⟩ := half hi
    obtain ⟨b, hb, n', j', hj', eb, ub⟩ := half hj
    obtain ⟨p, ⟨⟨g, hp⟩, p1, p2, p3, p4⟩, pu⟩ := ih a b
      (fun p f br bc c h => hJ ((a, b) :: p) f br bc c (.step ha hb h)) hi' hj'
    refine ⟨(a, b) :: p, ⟨⟨g, .step ha hb hp⟩, ?_⟩, ?_⟩
    · have h1 := (ea _).1 ⟨p1, p2⟩
      have h2 := (eb _).1 ⟨p3, p4⟩
      exact ⟨h1.1, h1.2, h2.1, h2.2⟩
    · rintro q ⟨⟨g', hq⟩, q1, q2, q3, q4⟩
      cases hq with
      | @step _ _ _ _ a' b' q _ ha' hb' hq =>
        simp only [List.map_cons] at q1 q2 q3 q4
        obtain rfl := ua _ _ q1 q2 ha'
        obtain rfl := ub _ _ q3 q4 hb'
        have h1 := (ea _).2 ⟨q1, q2⟩
        have h2 := (eb _).2 ⟨q3, q4⟩
        rw [pu q ⟨⟨g', hq⟩, h1.1, h1.2, h2.1, h2.2⟩]

end Verif
