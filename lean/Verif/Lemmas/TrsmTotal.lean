import Verif.Spec.TriTotal
import Verif.Lemmas.GemmTotal
import Verif.Lemmas.Trsm

/-
Triangular solves return.
-/

namespace Verif
open Finset

variable {R : Type}

namespace Mat

theorem TriSubdiv.diagSquare {b : Nat} {uplo : Uplo} {A : Mat R} (h : A.TriSubdiv b uplo) :
    A.DiagSquare := by
  induction A with
  | dense a => exact h
  | lowRank a => exact h.elim
  | empty => exact h.elim
  | hier p q A ih =>
    obtain ⟨rfl, rfl, h, -⟩ := h
    exact ⟨rfl, fun i hi => ih i i (h i hi)⟩

theorem TriRegular.diag {b : Nat} {uplo : Uplo} {p q : Nat} {A : Nat → Nat → Mat R}
    (h : (Mat.hier p q A).TriRegular b uplo) {i : Nat} (hi : i < p) : (A i i).TriRegular b uplo := by
  have w := h.wf
  have e := h.even
  simp only [WF] at w
  simp only [Even] at e
  obtain ⟨rfl, rfl, hd, -⟩ := h.sub
  exact ⟨(w.2.2 i hi i hi).1, (e i hi i hi).1, hd i hi⟩

theorem TriRegular.off {b : Nat} {uplo : Uplo} {p q : Nat} {A : Nat → Nat → Mat R}
    (h : (Mat.hier p q A).TriRegular b uplo) {i k : Nat} (hi : i < p) (hk : k < q)
    (hs : InTri uplo i k) : (A i k).Regular b := by
  have w := h.wf
  have e := h.even
  simp only [WF] at w
  simp only [Even] at e
  exact ⟨(w.2.2 i hi k hk).1, (e i hi k hk).1, h.sub.2.2.2 i hi k hk hs⟩

theorem blockSubst_total {n : Nat} {gm : Nat → Nat → Mat R → Mat R → Except Err (Mat R)}
    {sv : Nat → Mat R → Except Err (Mat R)} {σ : Nat → Nat} {x : Nat → Mat R}
    (P : Nat → Mat R → Prop) (hσ : ∀ t < n, σ t < n) (hx : ∀ i < n, P i (x i))
    (hg : ∀ t < n, ∀ u < t, ∀ xk b, P (σ u) xk → P (σ t) b →
      ∃ b', gm (σ t) (σ u) xk b = .ok b' ∧ P (σ t) b')
    (hs : ∀ t < n, ∀ b, P (σ t) b → ∃ b', sv (σ t) b = .ok b' ∧ P (σ t) b') :
    ∃ X, blockSubst n gm sv σ x = .ok X ∧ ∀ i < n, P i (X i) := by
  refine loop_total (fun _ (y : Nat → Mat R) => ∀ i < n, P i (y i)) hx (fun t ht y hy => ?_)
  obtain ⟨c, hc, Pc⟩ := loop_total (n := t) (body := fun u b => gm (σ t) (σ u) (y (σ u)) b) (s := y (σ t))
    (fun _ b => P (σ t) b) (hy _ (hσ t ht)) (fun u hu b hb =>
      hg t ht u hu _ b (hy _ (hσ u (by omega))) hb)
  obtain ⟨c', hc', Pc'⟩ := hs t ht c Pc
  refine ⟨fun i => if i = σ t then c' else y i, ?_, fun i hi => ?_⟩
  · rw [hc, except_bind_ok, hc', except_bind_ok]
  · by_cases e : i = σ t
    · simp only [e, if_true]; exact Pc'
    · simp only [e, if_false]; exact hy i hi

section
variable [CommRing R] [DecidableEq R]

omit [DecidableEq R] in
theorem DiagNonzero.block {uplo : Uplo} {p q : Nat} {A : Nat → Nat → Mat R} (hA : (Mat.hier p q A).WF)
    (hD : (Mat.hier p q A).DiagSquare) (h : (Mat.hier p q A).DiagNonzero uplo) {i : Nat} (hi : i < p) :
    (A i i).DiagNonzero uplo := by
  intro hu x hx
  have hw := hD.widths hA
  have hA' := hA
  simp only [WF] at hA'
  have hx0 : x < (A i 0).nRows := by
    rw [← (hA'.2.2 i hi i (by have := hD.1; omega)).2.1]; exact hx
  have e : psum (fun k => (A k 0).nRows) i = psum (fun k => (A 0 k).nCols) i :=
    psum_congr (fun k hk => (hw k (by omega)).symm)
  have E : (Mat.hier p q A).entry (psum (fun k => (A k 0).nRows) i + x)
      (psum (fun k => (A k 0).nRows) i + x) = (A i i).entry x x := by
    conv_lhs => rw [e]
    rw [← e]
    conv_lhs => arg 3; rw [e]
    exact entry_block hi (by have := hD.1; omega) hx0 (by rw [hw i hi]; exact hx0)
  have := h hu (psum (fun k => (A k 0).nRows) i + x) (by
    rw [nRows_hier]
    have := psum_le (fun k => (A k 0).nRows) hi
    omega)
  rwa [E] at this

/-- The multiplication returns on regular operands of depth at most `d`. -/
def GemmTot (Q : LowRank R → Prop) (b d : Nat) (g : GemmT R) : Prop :=
  ∀ (A B C : Mat R) (α β : R), A.Regular b → B.Regular b → C.Regular b → C.Square → C.All Q →
    A.depth ≤ d → B.depth ≤ d → C.depth ≤ d → GemmDims false false A B C →
    ∃ C', g A B C α β false false = .ok C' ∧ C'.All Q

theorem gemmTot {o : LrOps R} {Q : LowRank R → Prop} (hf : o.Fits False) (hT : o.Total False Q) {b : Nat}
    (hb : 2 ≤ b) {d n : Nat} (hn : 6 * d + 1 ≤ n) : GemmTot Q b d (gemm o n) :=
  fun A B C α β hA hB hC hs hq dA dB dC hd => (totalUpTo hf hT hb d).1 n hn A B C α β false false
    hA hB hC hs hq dA dB dC (TransSafe_ff _ _) (fun h => h.elim) hd

omit [DecidableEq R] in
theorem GemmTot.step {ex : Prop} {Q : LowRank R → Prop} {b d : Nat} {g : GemmT R} (hG : GemmTot Q b d g)
    (hg : GemmOk ex False g) {A X B c : Mat R} (hA : A.Regular b) (hX : X.Regular b) (hB : B.Regular b)
    (dA : A.depth ≤ d) (dX : X.depth ≤ d) (dB : B.depth ≤ d) (sh : B.SameShape c) (tc : c.Target Q)
    (hd : GemmDims false false A X B) (α β : R) :
    ∃ c', g A X c α β false false = .ok c' ∧ B.SameShape c' ∧ c'.Target Q := by
  have dd := sh.dims hB.wf
  have hd' : GemmDims false false A X c :=
    ⟨by rw [dd.1]; exact hd.rows, hd.inner, by rw [dd.2]; exact hd.cols⟩
  obtain ⟨c', e, q⟩ := hG A X c α β hA hX (sh.regular tc.wf hB) tc.sqr tc.all dA dX
    (by rw [sh.depth]; exact dB) hd'
  have P := (hg A X c _ _ _ _ c' hA.wf hX.wf tc.wf tc.sqr (TransSafe_ff _ _) (fun h => h.elim) e).2
  exact ⟨c', e, sh.trans P.shape, tc.shape P.shape P.wf P.sqr q⟩

omit [DecidableEq R] in
/-- Block sizes of a triangular matrix and a right-hand side agree. -/
theorem tri_grid_dims {p q r s : Nat} {side : Side} {A B : Nat → Nat → Mat R} (hA : (Mat.hier p q A).WF)
    (eA : (Mat.hier p q A).Even) (hD : (Mat.hier p q A).DiagSquare) (hB : (Mat.hier r s B).WF)
    (eB : (Mat.hier r s B).Even) (hp : p = side.pick r s)
    (hn : (Mat.hier p q A).nRows = side.pick (Mat.hier r s B).nRows (Mat.hier r s B).nCols) :
    (∀ i < p, ∀ k < p, (A i k).nRows = evenSize (Mat.hier p q A).nRows p i ∧
      (A i k).nCols = evenSize (Mat.hier p q A).nRows p k) ∧
    ∀ i < r, ∀ j < s, (B i j).nRows = side.pick (evenSize (Mat.hier p q A).nRows p i) (B i j).nRows ∧
      (B i j).nCols = side.pick (B i j).nCols (evenSize (Mat.hier p q A).nRows p j) ∧
      (∀ k < s, (B i k).nRows = (B i j).nRows) ∧ (∀ k < r, (B k j).nCols = (B i j).nCols) := by
  have hA' := hA
  have hB' := hB
  simp only [WF] at hA' hB'
  obtain ⟨-, -, gA⟩ := Even.parts eA hA'.1 hA'.2.1
  obtain ⟨-, -, gB⟩ := Even.parts eB hB'.1 hB'.2.1
  have sq := hD.dims hA
  have hq := hD.1
  refine ⟨fun i hi k hk => ⟨(gA i hi k (by omega)).1, ?_⟩, fun i hi j hj => ⟨?_, ?_, ?_, ?_⟩⟩
  · rw [(gA i hi k (by omega)).2, ← sq, hq]
  · cases side
    · have hp : p = r := hp
      have hn : (Mat.hier p q A).nRows = (Mat.hier r s B).nRows := hn
      show _ = evenSize _ p i
      rw [(gB i hi j hj).1, hn, hp]
    · rfl
  · cases side
    · rfl
    · have hp : p = s := hp
      have hn : (Mat.hier p q A).nRows = (Mat.hier r s B).nCols := hn
      show _ = evenSize _ p j
      rw [(gB i hi j hj).2, hn, hp]
  · intro k hk
    rw [(gB i hi k hk).1, (gB i hi j hj).1]
  · intro k hk
    rw [(gB k hk j hj).2, (gB i hi j hj).2]

omit [DecidableEq R] in
theorem Solvable.shape {b : Nat} {uplo : Uplo} {side : Side} {A B B' : Mat R} (h : Solvable b uplo side A B)
    (hs : B.SameShape B') (hw : B'.WF) : Solvable b uplo side A B' := by
  induction A generalizing B B' with
  | dense a => cases B <;> cases B' <;> first | exact hs.elim | exact h.elim | exact h
  | lowRank a => exact h.elim
  | empty => exact h.elim
  | hier p q A ih =>
    cases B <;> cases B' <;> first | exact hs.elim | exact h.elim | exact h | skip
    obtain ⟨rfl, rfl, hs⟩ := hs
    obtain ⟨h1, h2, h3, h⟩ := h
    simp only [WF] at hw
    exact ⟨h1, h2, h3, fun i hi j hj => ⟨(hs i hi j hj).regular (hw.2.2 i hi j hj).1 (h i hi j hj).1,
      ih _ _ (h i hi j hj).2 (hs i hi j hj) (hw.2.2 i hi j hj).1⟩⟩

end

section
variable [Field R] [DecidableEq R]

omit [DecidableEq R] in
theorem trsmHH_total {g : GemmT R} {t : Mat R → Mat R → Except Err (Mat R)} {uplo : Uplo} {side : Side}
    {p q r s : Nat} {A B : Nat → Nat → Mat R} (P : Nat → Nat → Mat R → Prop)
    (h1 : ¬(uplo = .lower ∧ side = .right)) (h2 : uplo = .upper ∧ side = .left → s = 1)
    (hp : p = side.pick r s) (hq : q = p)
    (hB : ∀ i < r, ∀ j < s, P i j (B i j))
    (hgl : side = .left → ∀ i < r, ∀ k < r, ∀ j < s, InTri uplo i k →
      ∀ xk b, P k j xk → P i j b → ∃ b', g (A i k) xk b (-1) 1 false false = .ok b' ∧ P i j b')
    (hgr : side = .right → ∀ j < s, ∀ k < s, ∀ i < r, InTri uplo k j →
      ∀ xk b, P i k xk → P i j b → ∃ b', g xk (A k j) b (-1) 1 false false = .ok b' ∧ P i j b')
    (hs : ∀ i < r, ∀ j < s, ∀ b, P i j b →
      ∃ b', t (A (side.pick i j) (side.pick i j)) b = .ok b' ∧ P i j b') :
    ∃ X, trsmHH g t uplo side p q A r s B = .ok (.hier r s X) ∧ ∀ i < r, ∀ j < s, P i j (X i j) := by
  subst hq
  have ba : ∀ i k, i < q → k < q → blockAt q q A i k = .ok (A i k) := fun i k hi hk => by
    simp [blockAt, assertM, hi, hk]
  cases side with
  | left =>
    have hp : q = r := hp
    subst hp
    have line : ∀ j < s, ∃ X, blockSubst q (fun i k xk xi => do
          let a ← blockAt q q A i k
          g a xk xi (-1) 1 false false) (fun i x => do
          let a ← blockAt q q A i i
          t a x) (Dense.solveOrder (decide (uplo = .upper)) q) (fun i => B i j) = .ok X ∧
        ∀ i < q, P i j (X i) := by
      intro j hj
      refine blockSubst_total (fun i => P i j) (fun t ht => solveOrder_lt ht) (fun i hi => hB i hi j hj) ?_ ?_
      · intro t ht u hu xk b hk hb
        have l1 := solveOrder_lt (b := decide (uplo = .upper)) ht
        have l2 := solveOrder_lt (b := decide (uplo = .upper)) (show u < q by omega)
        obtain ⟨b', e, hb'⟩ := hgl rfl _ l1 _ l2 j hj (by
          cases uplo
          · show Dense.solveOrder true q t < Dense.solveOrder true q u
            simp only [Dense.solveOrder, if_true]; omega
          · exact hu) xk b hk hb
        exact ⟨b', by rw [ba _ _ l1 l2, except_bind_ok, e], hb'⟩
      · intro t ht b hb
        have l1 := solveOrder_lt (b := decide (uplo = .upper)) ht
        obtain ⟨b', e, hb'⟩ := hs _ l1 j hj b hb
        exact ⟨b', by rw [ba _ _ l1 l1, except_bind_ok]; exact e, hb'⟩
    cases uplo with
    | upper =>
      obtain rfl := h2 ⟨rfl, rfl⟩
      obtain ⟨X, hX, PX⟩ := line 0 (by omega)
      refine ⟨fun i _ => X i, ?_, fun i hi j hj => ?_⟩
      · show (do
          let X ← blockSubst q (fun i k xk xi => do
              let a ← blockAt q q A i k
              g a xk xi (-1) 1 false false) (fun i x => do
              let a ← blockAt q q A i i
              t a x) (Dense.solveOrder true q) (fun i => B i 0)
          .ok (.hier q 1 (fun i _ => X i)) : Except Err (Mat R)) = _
        have hX : blockSubst q (fun i k xk xi => do
          let a ← blockAt q q A i k
          g a xk xi (-1) 1 false false) (fun i x => do
          let a ← blockAt q q A i i
          t a x) (Dense.solveOrder true q) (fun i => B i 0) = .ok X := hX
        rw [hX, except_bind_ok]
      · obtain rfl : j = 0 := by omega
        exact PX i hi
    | lower =>
      obtain ⟨X, hX⟩ := collect_exists (n := s) (f := fun j => blockSubst q (fun i k xk xi => do
          let a ← blockAt q q A i k
          g a xk xi (-1) 1 false false) (fun i x => do
          let a ← blockAt q q A i i
          t a x) (Dense.solveOrder false q) (fun i => B i j)) (fun j hj => ⟨_, (line j hj).choose_spec.1⟩)
      refine ⟨fun i j => X j i, ?_, fun i hi j hj => ?_⟩
      · show (do
          let X ← collect s (fun j => blockSubst q (fun i k xk xi => do
              let a ← blockAt q q A i k
              g a xk xi (-1) 1 false false) (fun i x => do
              let a ← blockAt q q A i i
              t a x) (Dense.solveOrder false q) (fun i => B i j))
          .ok (.hier q s (fun i j => X j i)) : Except Err (Mat R)) = _
        rw [hX, except_bind_ok]
      · obtain ⟨Y, hY, PY⟩ := line j hj
        have e := (collect_ok hX j hj).symm.trans hY
        have e := Except.ok.inj e
        subst e
        exact PY i hi
  | right =>
    have hp : q = s := hp
    subst hp
    cases uplo with
    | lower => exact absurd ⟨rfl, rfl⟩ h1
    | upper =>
      have line : ∀ i < r, ∃ X, blockSubst q (fun j k xk xj => do
            let a ← blockAt q q A k j
            g xk a xj (-1) 1 false false) (fun i x => do
            let a ← blockAt q q A i i
            t a x) (Dense.solveOrder false q) (fun j => B i j) = .ok X ∧
          ∀ j < q, P i j (X j) := by
        intro i hi
        refine blockSubst_total (fun j => P i j) (fun t ht => solveOrder_lt ht) (fun j hj => hB i hi j hj) ?_ ?_
        · intro t ht u hu xk b hk hb
          have l1 := solveOrder_lt (b := false) ht
          have l2 := solveOrder_lt (b := false) (show u < q by omega)
          obtain ⟨b', e, hb'⟩ := hgr rfl _ l1 _ l2 i hi hu xk b hk hb
          exact ⟨b', by rw [ba _ _ l2 l1, except_bind_ok, e], hb'⟩
        · intro t ht b hb
          have l1 := solveOrder_lt (b := false) ht
          obtain ⟨b', e, hb'⟩ := hs i hi _ l1 b hb
          exact ⟨b', by rw [ba _ _ l1 l1, except_bind_ok]; exact e, hb'⟩
      obtain ⟨X, hX⟩ := collect_exists (n := r) (f := fun i => blockSubst q (fun j k xk xj => do
          let a ← blockAt q q A k j
          g xk a xj (-1) 1 false false) (fun i x => do
          let a ← blockAt q q A i i
          t a x) (Dense.solveOrder false q) (fun j => B i j)) (fun i hi => ⟨_, (line i hi).choose_spec.1⟩)
      refine ⟨fun i j => X i j, ?_, fun i hi j hj => ?_⟩
      · show (do
          let X ← collect r (fun i => blockSubst q (fun j k xk xj => do
              let a ← blockAt q q A k j
              g xk a xj (-1) 1 false false) (fun i x => do
              let a ← blockAt q q A i i
              t a x) (Dense.solveOrder false q) (fun j => B i j))
          .ok (.hier r q (fun i j => X i j)) : Except Err (Mat R)) = _
        rw [hX, except_bind_ok]
      · obtain ⟨Y, hY, PY⟩ := line i hi
        have e := (collect_ok hX i hi).symm.trans hY
        have e := Except.ok.inj e
        subst e
        exact PY j hj

theorem Dense_trsm_total {uplo : Uplo} {side : Side} {A B : Dense R} (h : A.rows = A.cols)
    (hn : A.rows = side.pick B.rows B.cols) (hd : (Mat.dense A).DiagNonzero uplo) :
    ∃ X, Dense.trsm uplo side A B = .ok X := by
  unfold Dense.trsm
  dsimp only
  split_ifs with h1 h2
  · exact ⟨_, rfl⟩
  · exact ⟨_, rfl⟩
  · refine absurd ⟨by omega, by omega, ?_⟩ h2
    rw [List.all_eq_true]
    intro i hi
    rw [List.mem_range, ← hn] at hi
    rw [decide_eq_true_eq]
    cases uplo with
    | lower => simp [Dense.tri]
    | upper => simpa [Dense.tri, Mat.entry] using hd rfl i hi

/-- An update of a block returns and keeps the structure. -/
def GemmStep (Q : LowRank R → Prop) (b d : Nat) (g : GemmT R) : Prop :=
  ∀ {A X B c : Mat R}, A.Regular b → X.Regular b → B.Regular b → A.depth ≤ d → X.depth ≤ d →
    B.depth ≤ d → B.SameShape c → c.Target Q → GemmDims false false A X B → ∀ α β : R,
    ∃ c', g A X c α β false false = .ok c' ∧ B.SameShape c' ∧ c'.Target Q

omit [DecidableEq R] in
theorem GemmTot.steps {ex : Prop} {Q : LowRank R → Prop} {b d : Nat} {g : GemmT R} (hG : GemmTot Q b d g)
    (hg : GemmOk ex False g) : GemmStep Q b d g :=
  fun hA hX hB dA dX dB sh tc hd α β => hG.step hg hA hX hB dA dX dB sh tc hd α β

omit [DecidableEq R] in
/-- The block substitution returns. -/
theorem trsm_grid_total {Q : LowRank R → Prop} {b d : Nat} {g : GemmT R} (hG : GemmStep Q b d g)
    {t : Mat R → Mat R → Except Err (Mat R)}
    {uplo : Uplo} {side : Side} {p q r s : Nat} {A B : Nat → Nat → Mat R}
    (hA : (Mat.hier p q A).TriRegular b uplo) (dA : (Mat.hier p q A).depth ≤ d)
    (hB : (Mat.hier r s B).Target Q) (hr : ∀ i < r, ∀ j < s, (B i j).Regular b ∧ (B i j).depth ≤ d)
    (h1 : ¬(uplo = .lower ∧ side = .right)) (h2 : uplo = .upper ∧ side = .left → s = 1)
    (hp : p = side.pick r s)
    (hn : (Mat.hier p q A).nRows = side.pick (Mat.hier r s B).nRows (Mat.hier r s B).nCols)
    (hs : ∀ i < r, ∀ j < s, ∀ c, (B i j).SameShape c → c.Target Q →
      ∃ c', t (A (side.pick i j) (side.pick i j)) c = .ok c' ∧ c.SameShape c' ∧ c'.Target Q) :
    ∃ X, trsmHH g t uplo side p q A r s B = .ok (.hier r s X) ∧
      ∀ i < r, ∀ j < s, (B i j).SameShape (X i j) ∧ (X i j).Target Q := by
  have hD := hA.sub.diagSquare
  obtain ⟨gA, gB⟩ := tri_grid_dims hA.wf hA.even hD hB.wf hB.even hp hn
  have hq : p = q := hD.1
  have wA := hA.wf
  simp only [WF] at wA
  refine trsmHH_total (fun i j c => (B i j).SameShape c ∧ c.Target Q) h1 h2 hp hq.symm
    (fun i hi j hj => ⟨SameShape.refl _, hB.block hi hj⟩) ?_ ?_ ?_
  · rintro rfl i hi k hk j hj hik xk c hxk hc
    have hp : p = r := hp
    have dk := hxk.1.dims (hr k hk j hj).1.wf
    refine hG (hA.off (by omega) (by omega) hik) (hxk.1.regular hxk.2.wf (hr k hk j hj).1)
      (hr i hi j hj).1 ?_ (by rw [hxk.1.depth]; exact (hr k hk j hj).2) (hr i hi j hj).2 hc.1 hc.2 ?_ _ _
    · have := depth_block (blk := A) (br := p) (bc := q) (i := i) (j := k) (by omega) (by omega)
      omega
    · refine ⟨?_, ?_, ?_⟩
      · show (A i k).nRows = _
        rw [(gB i hi j hj).1, (gA i (by omega) k (by omega)).1]; rfl
      · show (A i k).nCols = xk.nRows
        rw [dk.1, (gB k hk j hj).1, (gA i (by omega) k (by omega)).2]; rfl
      · show xk.nCols = _
        rw [dk.2, (gB i hi j hj).2.2.2 k hk]
  · rintro rfl j hj k hk i hi hkj xk c hxk hc
    have hp : p = s := hp
    have dk := hxk.1.dims (hr i hi k hk).1.wf
    refine hG (hxk.1.regular hxk.2.wf (hr i hi k hk).1) (hA.off (by omega) (by omega) hkj)
      (hr i hi j hj).1 (by rw [hxk.1.depth]; exact (hr i hi k hk).2) ?_ (hr i hi j hj).2 hc.1 hc.2 ?_ _ _
    · have := depth_block (blk := A) (br := p) (bc := q) (i := k) (j := j) (by omega) (by omega)
      omega
    · refine ⟨?_, ?_, ?_⟩
      · show xk.nRows = _
        rw [dk.1, (gB i hi j hj).2.2.1 k hk]
      · show xk.nCols = (A k j).nRows
        rw [dk.2, (gB i hi k hk).2.1, (gA k (by omega) j (by omega)).1]; rfl
      · show (A k j).nCols = _
        rw [(gB i hi j hj).2.1, (gA k (by omega) j (by omega)).2]; rfl
  · intro i hi j hj c hc
    obtain ⟨c', e, q', q''⟩ := hs i hi j hj c hc.1 hc.2
    exact ⟨c', e, hc.1.trans q', q''⟩

/-- Right-hand side of a low-rank kind costs one more call. -/
def lrCost : Mat R → Nat
  | .lowRank _ => 1
  | _ => 0

omit [Field R] [DecidableEq R] in
theorem TriSubdiv.solvable_dense {b : Nat} {uplo : Uplo} {side : Side} {A : Mat R} (h : A.TriSubdiv b uplo)
    (hs : ¬(uplo = .lower ∧ side = .right)) {y : Dense R} : Solvable b uplo side A (.dense y) := by
  cases A <;> first | exact h.elim | exact hs | trivial

theorem trsmWith_total {ex : Prop} {Q : LowRank R → Prop} (hQ : OuterStable Q) {b d : Nat} {g : GemmT R}
    (hG : GemmTot Q b d g) (hg : GemmOk ex False g) {uplo : Uplo} {side : Side} (fuel : Nat) :
    ∀ A B : Mat R, A.TriRegular b uplo → A.DiagNonzero uplo → A.depth ≤ d → B.Target Q → B.depth ≤ d →
      Solvable b uplo side A B → A.nRows = side.pick B.nRows B.nCols →
      2 * A.depth + 1 + lrCost B ≤ fuel →
      ∃ X, trsmWith g uplo side fuel A B = .ok X ∧ X.All Q := by
  induction fuel using Nat.strong_induction_on with
  | _ fuel ih =>
  intro A B hA hz dA hB dB hS hn hfu
  obtain ⟨f, rfl⟩ : ∃ f, fuel = f + 1 := ⟨fuel - 1, by omega⟩
  have ht := fun f => trsmWith_shape hg (side := side) (uplo := uplo) f
  have post : ∀ f {A c : Mat R}, A.WF → c.Target Q →
      (∃ c', trsmWith g uplo side f A c = .ok c' ∧ c'.All Q) →
      ∃ c', trsmWith g uplo side f A c = .ok c' ∧ c.SameShape c' ∧ c'.Target Q := by
    intro f A c hA tc ⟨c', e, q'⟩
    have S := ht f A c c' hA tc.wf tc.sqr e
    exact ⟨c', e, S.2.2, tc.shape S.2.2 S.1 S.2.1 q'⟩
  simp only [trsmWith]
  cases B with
  | empty => cases A <;> exact hS.elim
  | lowRank l =>
    have hl : l.WF := hB.wf
    simp only [lrCost] at hfu
    have hS' : Solvable b uplo side A (.dense (l.outer side)) := by cases A <;> exact hS
    obtain ⟨X, hX, -⟩ := ih f (by omega) A (.dense (l.outer side)) hA hz dA (target_dense Q _)
      (Nat.zero_le _) hS' (by
        rw [hn]
        cases side
        · exact hl.urows.symm
        · exact hl.vcols.symm) (by simp only [lrCost]; omega)
    have S := ht f A (.dense (l.outer side)) X hA.wf trivial trivial hX
    cases X <;> try exact S.2.2.elim
    rename_i x
    refine ⟨.lowRank (l.setOuter side x), ?_, hQ side l x hB.all S.2.2.1.symm S.2.2.2.symm⟩
    have : trsmOmm g (trsmWith g uplo side f) uplo side A (.lowRank l) = (do
        let X ← trsmWith g uplo side f A (.dense (l.outer side))
        let X ← X.asDense
        .ok (.lowRank (l.setOuter side X))) := by cases A <;> rfl
    rw [this, hX]
    rfl
  | dense y =>
    cases A with
    | lowRank a => exact hS.elim
    | empty => exact hS.elim
    | dense a =>
      obtain ⟨X, hX⟩ := Dense_trsm_total (uplo := uplo) (side := side) (B := y) hA.sub hn hz
      exact ⟨.dense X, by simp only [trsmOmm, hX]; rfl, trivial⟩
    | hier p q A =>
      have hD := hA.sub.diagSquare
      have hq : p = q := hD.1
      have wA := hA.wf
      simp only [WF] at wA
      obtain ⟨eS, -, -⟩ := Even.parts hA.even wA.1 wA.2.1
      have n1 : 1 ≤ side.pick p 1 := by cases side <;> simp [Side.pick] ; omega
      have n2 : 1 ≤ side.pick 1 q := by cases side <;> simp [Side.pick] ; omega
      have d0 : (Mat.hier p q A).depth ≠ 0 := by simp only [depth]; omega
      obtain ⟨f', rfl⟩ : ∃ f', f = f' + 1 := ⟨f - 1, by omega⟩
      obtain ⟨bl, hbl, tb, same, hd⟩ := split_target (Q := Q) (c := y) n1 n2 (by
        cases side
        · show ESplit y.rows p
          rw [← show (Mat.hier p q A).nRows = y.rows from hn]; exact eS
        · exact esplit_one _) (by
        cases side
        · exact esplit_one _
        · show ESplit y.cols q
          rw [← show (Mat.hier p q A).nRows = y.cols from hn, ← hq]; exact eS)
      have hn' : (Mat.hier p q A).nRows = side.pick (Mat.hier (side.pick p 1) (side.pick 1 q) bl).nRows
          (Mat.hier (side.pick p 1) (side.pick 1 q) bl).nCols := by
        rw [hn]
        obtain ⟨s1, s2, -⟩ := same
        rw [s1, s2]
      have hp' : p = side.pick (side.pick p 1) (side.pick 1 q) := by
        cases side
        · rfl
        · exact hq
      have GD := tri_grid_dims hA.wf hA.even hD tb.wf tb.even hp' hn'
      obtain ⟨X, hX, hXs⟩ := trsm_grid_total (hG.steps hg) hA dA tb
        (fun i hi j hj => by
          obtain ⟨c, e⟩ := hd i hi j hj
          rw [e]
          exact ⟨regular_dense b c, Nat.zero_le _⟩) hS (by
          rintro ⟨-, rfl⟩; rfl) hp' hn' (fun i hi j hj c hc tc => by
          obtain ⟨e, he⟩ := hd i hi j hj
          have hlt : side.pick i j < p := by
            cases side
            · exact hi
            · show j < p
              rw [hq]; exact hj
          have db := depth_block (blk := A) (br := p) (bc := q) hlt (show side.pick i j < q by omega)
          have dm := hc.dims (tb.block hi hj).wf
          rw [he] at hc
          cases c <;> try exact hc.elim
          refine post f' (hA.diag hlt).wf tc (ih f' (by omega) _ _ (hA.diag hlt)
            (hz.block hA.wf hD hlt) (by omega) tc (Nat.zero_le _)
            ((hA.diag hlt).sub.solvable_dense hS) ?_ (by simp only [lrCost]; omega))
          rw [(GD.1 _ hlt _ hlt).1, dm.1, dm.2, (GD.2 i hi j hj).1, (GD.2 i hi j hj).2.1]
          cases side <;> rfl)
      have hX' : trsmWith g uplo side (f' + 1) (.hier p q A) (.hier (side.pick p 1) (side.pick 1 q) bl) =
        .ok (.hier (side.pick p 1) (side.pick 1 q) X) := hX
      have sh : (Mat.hier (side.pick p 1) (side.pick 1 q) bl).SameShape
        (.hier (side.pick p 1) (side.pick 1 q) X) := ⟨rfl, rfl, fun i hi j hj => (hXs i hi j hj).1⟩
      obtain ⟨x, hx⟩ := joinDense_total (c := y) hd sh
      exact ⟨.dense x, by simp only [trsmOmm, hbl, except_bind_ok, hX', hx], trivial⟩
  | hier r s B =>
    cases A with
    | lowRank a => exact hS.elim
    | empty => exact hS.elim
    | dense a => exact hS.elim
    | hier p q A =>
      obtain ⟨h1, h2, hp, hS⟩ := hS
      have hD := hA.sub.diagSquare
      have hq : p = q := hD.1
      have GD := tri_grid_dims hA.wf hA.even hD hB.wf hB.even hp hn
      simp only [lrCost] at hfu
      obtain ⟨X, hX, hXs⟩ := trsm_grid_total (hG.steps hg) hA dA hB
        (fun i hi j hj => ⟨(hS i hi j hj).1, by
          have := depth_block (blk := B) hi hj
          omega⟩) h1 h2 hp hn (fun i hi j hj c hc tc => by
          have hlt : side.pick i j < p := by cases side <;> rw [hp] <;> assumption
          have db := depth_block (blk := A) (br := p) (bc := q) hlt (show side.pick i j < q by omega)
          have db' := depth_block (blk := B) hi hj
          have dm := hc.dims (hB.block hi hj).wf
          have cl : lrCost c ≤ 1 := by cases c <;> simp [lrCost]
          refine post f (hA.diag hlt).wf tc (ih f (by omega) _ _ (hA.diag hlt)
            (hz.block hA.wf hD hlt) (by omega) tc
            (by rw [hc.depth]; omega) ((hS i hi j hj).2.shape hc tc.wf) ?_ (by omega))
          rw [(GD.1 _ hlt _ hlt).1, dm.1, dm.2, (GD.2 i hi j hj).1, (GD.2 i hi j hj).2.1]
          cases side <;> rfl)
      exact ⟨_, hX, fun i hi j hj => (hXs i hi j hj).2.all⟩

end
end Mat
end Verif
