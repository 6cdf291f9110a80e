import Verif.Lemmas.TrsmTotal
import Verif.Lemmas.Trmm

/-
Triangular multiplication returns.
-/

namespace Verif
open Finset

variable {R : Type}

namespace Mat

section
variable [CommRing R]

theorem trmmIndex_tri {uplo : Uplo} {side : Side} {n i j u : Nat} (h : side.pick i j < n)
    (hu : u < trmmCount uplo side n i j) :
    side.pick (InTri uplo i (trmmIndex uplo side i j u)) (InTri uplo (trmmIndex uplo side i j u) j) := by
  cases uplo <;> cases side <;> simp only [Side.pick_left, Side.pick_right] at h <;>
    simp only [trmmCount] at hu <;> simp only [trmmIndex, Side.pick_left, Side.pick_right, InTri] <;> omega

theorem Dense_trmm_total {side : Side} {uplo : Uplo} {trans unit : Bool} {α : R} {A B : Dense R}
    (h : A.rows = A.cols) (hn : A.rows = side.pick B.rows B.cols) :
    ∃ X, Dense.trmm side uplo trans unit α A B = .ok X ∧ X.rows = B.rows ∧ X.cols = B.cols := by
  simp only [Dense.trmm, ← h, ← hn, assertM, decide_true, if_true, except_bind_ok]
  exact ⟨_, rfl, rfl, rfl⟩

/-- The block multiplication returns. -/
theorem trmm_grid_total {ex : Prop} {Q : LowRank R → Prop} {b d : Nat} {g : GemmT R} (hG : GemmTot Q b d g)
    (hg : GemmOk ex False g) {t : Mat R → Mat R → Except Err (Mat R)}
    (ht : ∀ A B B', A.WF → B.WF → B.Square → t A B = .ok B' → B'.WF ∧ B'.Square ∧ B.SameShape B')
    {uplo : Uplo} {side : Side} {α : R} {p q r s : Nat} {A B : Nat → Nat → Mat R}
    (wA : (Mat.hier p q A).WF) (eA : (Mat.hier p q A).Even) (hD : (Mat.hier p q A).DiagSquare)
    (hoff : ∀ i < p, ∀ k < p, InTri uplo i k → (A i k).Regular b)
    (dA : ∀ i < p, ∀ k < p, (A i k).depth ≤ d)
    (hB : (Mat.hier r s B).Target Q) (hr : ∀ i < r, ∀ j < s, (B i j).Regular b ∧ (B i j).depth ≤ d)
    (hp : p = side.pick r s)
    (hn : (Mat.hier p q A).nRows = side.pick (Mat.hier r s B).nRows (Mat.hier r s B).nCols)
    (hs : ∀ i < r, ∀ j < s, (A (side.pick i j) (side.pick i j)).nRows =
        side.pick (B i j).nRows (B i j).nCols →
      ∃ c', t (A (side.pick i j) (side.pick i j)) (B i j) = .ok c' ∧ c'.All Q) :
    ∃ X, trmmHH g t side uplo false α p q A r s B = .ok (.hier r s X) ∧
      ∀ i < r, ∀ j < s, (B i j).SameShape (X i j) ∧ (X i j).Target Q := by
  obtain ⟨gA, gB⟩ := tri_grid_dims wA eA hD hB.wf hB.even hp hn
  have hq : p = q := hD.1
  have wA' := wA
  simp only [WF] at wA'
  have key : ∀ i < r, ∀ j < s, ∃ c, (do
      let c ← t (A (side.pick i j) (side.pick i j)) (B i j)
      loop (trmmCount uplo side (side.pick r s) i j) (fun u c =>
        side.pick
          (g (A i (trmmIndex uplo side i j u)) (B (trmmIndex uplo side i j u) j) c α 1 false false)
          (g (B i (trmmIndex uplo side i j u)) (A (trmmIndex uplo side i j u) j) c α 1 false false)) c)
        = .ok c ∧ (B i j).SameShape c ∧ c.Target Q := by
    intro i hi j hj
    have hlt : side.pick i j < p := by cases side <;> rw [hp] <;> assumption
    obtain ⟨c, hc, q'⟩ := hs i hi j hj (by
      rw [(gA _ hlt _ hlt).1, (gB i hi j hj).1, (gB i hi j hj).2.1]
      cases side <;> rfl)
    have S := ht _ _ _ (wA'.2.2 _ hlt _ (by omega)).1 (hB.block hi hj).wf (hB.block hi hj).sqr hc
    have tc := (hB.block hi hj).shape S.2.2 S.1 S.2.1 q'
    rw [hc, except_bind_ok]
    refine loop_total (fun _ c => (B i j).SameShape c ∧ c.Target Q) ⟨S.2.2, tc⟩ (fun u hu x hx => ?_)
    have hk := trmmIndex_lt (by rw [← hp]; exact hlt) hu
    have hT := trmmIndex_tri (by rw [← hp]; exact hlt) hu
    generalize trmmIndex uplo side i j u = k at hk hT ⊢
    rw [← hp] at hk
    cases side
    · have hp : p = r := hp
      have hT : InTri uplo i k := hT
      have hik : i < p := by omega
      refine hG.step hg (hoff i hik k hk hT) (hr k (by omega) j hj).1 (hr i hi j hj).1 (dA i hik k hk)
        (hr k (by omega) j hj).2 (hr i hi j hj).2 hx.1 hx.2 ⟨?_, ?_, ?_⟩ _ _
      · show (A i k).nRows = _
        rw [(gB i hi j hj).1, (gA i (by omega) k (by omega)).1]; rfl
      · show (A i k).nCols = (B k j).nRows
        rw [(gB k (by omega) j hj).1, (gA i (by omega) k (by omega)).2]; rfl
      · exact (gB i hi j hj).2.2.2 k (by omega)
    · have hp : p = s := hp
      have hT : InTri uplo k j := hT
      have hjk : j < p := by omega
      refine hG.step hg (hr i hi k (by omega)).1 (hoff k hk j hjk hT) (hr i hi j hj).1
        (hr i hi k (by omega)).2 (dA k hk j hjk) (hr i hi j hj).2 hx.1 hx.2 ⟨?_, ?_, ?_⟩ _ _
      · exact (gB i hi j hj).2.2.1 k (by omega)
      · show (B i k).nCols = (A k j).nRows
        rw [(gB i hi k (by omega)).2.1, (gA k (by omega) j (by omega)).1]; rfl
      · show (A k j).nCols = _
        rw [(gB i hi j hj).2.1, (gA k (by omega) j (by omega)).2]; rfl
  obtain ⟨X, hX⟩ := collect2_exists (fun i hi j hj => ⟨_, (key i hi j hj).choose_spec.1⟩)
  refine ⟨X, ?_, fun i hi j hj => ?_⟩
  · simp only [trmmHH, ← hq, ← hp, assertM, decide_true, Bool.not_false, if_true, except_bind_ok]
    simp only [← hp] at hX
    rw [hX, except_bind_ok]
  · obtain ⟨c, hc, P⟩ := key i hi j hj
    have e := Except.ok.inj ((collect2_ok hX i hi j hj).symm.trans hc)
    rw [e]
    exact P

theorem trmmWith_total [DecidableEq R] {ex : Prop} {Q : LowRank R → Prop} (hQ : OuterStable Q) {b d : Nat} {g : GemmT R}
    (hG : GemmTot Q b d g) (hg : GemmOk ex False g) {uplo : Uplo} {side : Side} {trans unit : Bool} {α : R}
    (fuel : Nat) :
    ∀ A B : Mat R, A.TriRegular b uplo → A.depth ≤ d → B.Target Q → B.depth ≤ d → B.Subdiv b →
      A.nRows = side.pick B.nRows B.nCols → (trans = true → (∃ a, A = .dense a) ∧ B.Leaf) →
      2 * max A.depth B.depth + 1 ≤ fuel →
      ∃ X, trmmWith g side uplo trans unit α fuel A B = .ok X ∧ X.All Q := by
  induction fuel using Nat.strong_induction_on with
  | _ fuel ih =>
  intro A B hA dA hB dB hSb hn htr hfu
  obtain ⟨f, rfl⟩ : ∃ f, fuel = f + 1 := ⟨fuel - 1, by omega⟩
  have ht := fun f => trmmWith_shape hg (side := side) (uplo := uplo) (trans := trans) (unit := unit) (α := α) f
  simp only [trmmWith]
  cases A with
  | lowRank a => exact hA.sub.elim
  | empty => exact hA.sub.elim
  | dense a =>
    have ha : a.rows = a.cols := hA.sub
    cases B with
    | empty => exact hSb.elim
    | dense y =>
      obtain ⟨X, hX, -⟩ := Dense_trmm_total (side := side) (uplo := uplo) (trans := trans) (unit := unit)
        (α := α) (B := y) ha hn
      exact ⟨.dense X, by simp only [trmmOmm, hX]; rfl, trivial⟩
    | lowRank l =>
      have hl : l.WF := hB.wf
      have hn' : a.rows = side.pick l.dim0 l.dim1 := hn
      obtain ⟨X, hX, e1, e2⟩ := Dense_trmm_total (side := side) (uplo := uplo) (trans := trans) (unit := unit)
        (α := α) (B := l.outer side) ha (by
          rw [hn']
          cases side
          · exact hl.urows.symm
          · exact hl.vcols.symm)
      refine ⟨.lowRank (l.setOuter side X), ?_, hQ side l X hB.all e1 e2⟩
      simp only [trmmOmm, ← ha, ← hn', assertM, decide_true, if_true, except_bind_ok, hX]
    | hier r s B =>
      have hf : trans = false := by
        cases trans
        · rfl
        · exact (htr rfl).2.elim
      subst hf
      have wB := hB.wf
      simp only [WF] at wB
      obtain ⟨eS0, eS1, gB⟩ := Even.parts hB.even wB.1 wB.2.1
      have k1 : 1 ≤ side.pick r s := by cases side <;> simp [Side.pick] <;> omega
      have ES : ESplit a.rows (side.pick r s) := by
        have hn : a.rows = side.pick (Mat.hier r s B).nRows (Mat.hier r s B).nCols := hn
        rw [hn]
        cases side
        · exact eS0
        · exact eS1
      have d0 : (Mat.hier r s B).depth ≠ 0 := by simp only [depth]; omega
      obtain ⟨f', rfl⟩ : ∃ f', f = f' + 1 := ⟨f - 1, by omega⟩
      obtain ⟨bl, hbl, w, e, same, hd⟩ := split_dense_total (a := a) k1 k1 ES (by rw [← ha]; exact ES)
      have same' := same
      obtain ⟨s1, s2, -⟩ := same'
      obtain ⟨-, -, gA⟩ := Even.parts e k1 k1
      have hD : (Mat.hier (side.pick r s) (side.pick r s) bl).DiagSquare := by
        refine ⟨rfl, fun i hi => ?_⟩
        obtain ⟨x, ex⟩ := hd i hi i hi
        have h1 := gA i hi i hi
        rw [s1, s2, ← show a.rows = (Mat.dense a).nCols from ha] at h1
        rw [ex] at h1 ⊢
        exact h1.1.trans h1.2.symm
      obtain ⟨X, hX, hXs⟩ := trmm_grid_total (side := side) hG hg (ht f') (uplo := uplo) (α := α) w e hD
        (fun i hi k hk _ => by
          obtain ⟨x, ex⟩ := hd i hi k hk
          rw [ex]
          exact regular_dense b x)
        (fun i hi k hk => by
          obtain ⟨x, ex⟩ := hd i hi k hk
          rw [ex]
          exact Nat.zero_le _) hB
        (fun i hi j hj => ⟨⟨(hB.block hi hj).wf, (hB.block hi hj).even, hSb.2.2 i hi j hj⟩, by
          have := depth_block (blk := B) hi hj
          omega⟩) rfl (by rw [s1]; exact hn) (fun i hi j hj hij => by
          have hlt : side.pick i j < side.pick r s := by cases side <;> assumption
          have db := depth_block (blk := B) hi hj
          have hx := hD.2 _ hlt
          obtain ⟨x, ex⟩ := hd _ hlt _ hlt
          rw [ex] at hx hij ⊢
          have d1 : (Mat.dense x).depth = 0 := rfl
          exact ih f' (by omega) (.dense x) (B i j) ⟨trivial, trivial, hx⟩ (Nat.zero_le _) (hB.block hi hj)
            (by omega) (hSb.2.2 i hi j hj) hij (by simp) (by omega))
      refine ⟨.hier r s X, ?_, fun i hi j hj => (hXs i hi j hj).2.all⟩
      have hn' : a.rows = side.pick (Mat.hier r s B).nRows (Mat.hier r s B).nCols := hn
      have hX' : trmmWith g side uplo false unit α (f' + 1) (.hier (side.pick r s) (side.pick r s) bl)
        (.hier r s B) = .ok (.hier r s X) := hX
      simp only [trmmOmm, ← ha, ← hn', assertM, decide_true, if_true, except_bind_ok, hbl, hX']
  | hier p q A =>
    have hf : trans = false := by
      cases trans
      · rfl
      · obtain ⟨a, e⟩ := (htr rfl).1
        cases e
    subst hf
    have hD := hA.sub.diagSquare
    have hq : p = q := hD.1
    subst hq
    have wA := hA.wf
    simp only [WF] at wA
    have dAb : ∀ i < p, ∀ k < p, (A i k).depth + 1 ≤ (Mat.hier p p A).depth :=
      fun i hi k hk => depth_block hi hk
    obtain ⟨eS, -, -⟩ := Even.parts hA.even wA.1 wA.2.1
    have core : ∀ y : Dense R, (Mat.hier p p A).nRows = side.pick y.rows y.cols →
        ∃ BH BH' x, (Mat.dense y).split (side.pick p 1) (side.pick 1 p) = .ok BH ∧
          trmmWith g side uplo false unit α f (.hier p p A) BH = .ok BH' ∧
          joinDense y BH' = .ok (.dense x) ∧ x.rows = y.rows ∧ x.cols = y.cols := by
      intro y hn
      have n1 : 1 ≤ side.pick p 1 := by cases side <;> simp [Side.pick] ; omega
      have n2 : 1 ≤ side.pick 1 p := by cases side <;> simp [Side.pick] ; omega
      have d0 : (Mat.hier p p A).depth ≠ 0 := by simp only [depth]; omega
      obtain ⟨f', rfl⟩ : ∃ f', f = f' + 1 := ⟨f - 1, by omega⟩
      obtain ⟨bl, hbl, tb, same, hd⟩ := split_target (Q := Q) (c := y) n1 n2 (by
        cases side
        · show ESplit y.rows p
          rw [← show (Mat.hier p p A).nRows = y.rows from hn]; exact eS
        · exact esplit_one _) (by
        cases side
        · exact esplit_one _
        · show ESplit y.cols p
          rw [← show (Mat.hier p p A).nRows = y.cols from hn]; exact eS)
      obtain ⟨s1, s2, -⟩ := same
      obtain ⟨X, hX, hXs⟩ := trmm_grid_total (side := side) hG hg (ht f') (uplo := uplo) (α := α) hA.wf hA.even hD
        (fun i hi k hk hik => hA.off hi hk hik) (fun i hi k hk => by have := dAb i hi k hk; omega) tb
        (fun i hi j hj => by
          obtain ⟨c, e⟩ := hd i hi j hj
          rw [e]
          exact ⟨regular_dense b c, Nat.zero_le _⟩) (by cases side <;> rfl)
        (by rw [hn, s1, s2]; rfl) (fun i hi j hj hij => by
          have hlt : side.pick i j < p := by cases side <;> assumption
          have db := dAb _ hlt _ hlt
          have tij := tb.block hi hj
          obtain ⟨x, ex⟩ := hd i hi j hj
          rw [ex] at hij tij ⊢
          have d1 : (Mat.dense x).depth = 0 := rfl
          exact ih f' (by omega) _ (.dense x) (hA.diag hlt) (by omega) tij
            (by omega) trivial hij (by simp) (by omega))
      have hX' : trmmWith g side uplo false unit α (f' + 1) (.hier p p A)
        (.hier (side.pick p 1) (side.pick 1 p) bl) = .ok (.hier (side.pick p 1) (side.pick 1 p) X) := hX
      have sh : (Mat.hier (side.pick p 1) (side.pick 1 p) bl).SameShape
        (.hier (side.pick p 1) (side.pick 1 p) X) := ⟨rfl, rfl, fun i hi j hj => (hXs i hi j hj).1⟩
      obtain ⟨x, hx⟩ := joinDense_total (c := y) hd sh
      obtain ⟨x', e, e1, e2, -⟩ := joinDense_entries n1 n2 hbl sh hx
      cases e
      exact ⟨_, _, x, hbl, hX', hx, e1, e2⟩
    cases B with
    | empty => exact hSb.elim
    | dense y =>
      have hn' : (Mat.hier p p A).nRows = side.pick y.rows y.cols := hn
      obtain ⟨BH, BH', x, h1, h2, h3, -⟩ := core y hn'
      refine ⟨.dense x, ?_, trivial⟩
      simp only [trmmOmm, ← hn', assertM, decide_true, if_true, except_bind_ok, h1, h2, h3]
    | lowRank l =>
      have hl : l.WF := hB.wf
      have hn' : (Mat.hier p p A).nRows = side.pick l.dim0 l.dim1 := hn
      obtain ⟨BH, BH', x, h1, h2, h3, e1, e2⟩ := core (l.outer side) (by
          rw [hn']
          cases side
          · exact hl.urows.symm
          · exact hl.vcols.symm)
      refine ⟨.lowRank (l.setOuter side x), ?_, hQ side l x hB.all e1 e2⟩
      simp only [trmmOmm, ← hn', assertM, decide_true, if_true, except_bind_ok, h1, h2, h3, asDense]
    | hier r s B =>
      obtain ⟨hpb, -, -⟩ := hA.sub
      have hSb' := hSb
      obtain ⟨hrb, hsb, hSb'⟩ := hSb'
      obtain ⟨X, hX, hXs⟩ := trmm_grid_total hG hg (ht f) (uplo := uplo) (α := α) hA.wf hA.even hD
        (fun i hi k hk hik => hA.off hi hk hik) (fun i hi k hk => by have := dAb i hi k hk; omega) hB
        (fun i hi j hj => ⟨⟨(hB.block hi hj).wf, (hB.block hi hj).even, hSb' i hi j hj⟩, by
          have := depth_block (blk := B) hi hj
          omega⟩) (by cases side; exact hpb.trans hrb.symm; exact hpb.trans hsb.symm) hn
        (fun i hi j hj hij => by
          have hlt : side.pick i j < p := by cases side <;> simp only [Side.pick_left, Side.pick_right] <;> omega
          have db := dAb _ hlt _ hlt
          have db' := depth_block (blk := B) hi hj
          exact ih f (by omega) _ _ (hA.diag hlt) (by omega) (hB.block hi hj) (by omega) (hSb' i hi j hj) hij
            (by simp) (by omega))
      exact ⟨_, hX, fun i hi j hj => (hXs i hi j hj).2.all⟩

end
end Mat
end Verif
