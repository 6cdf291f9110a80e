import Verif.Lemmas.FitOps

/-
C46: a product that returns has looked at every block of its three operands, so
none of them contains an `Empty`.
-/

namespace Verif
open Finset

variable {R : Type}

namespace Mat

/-- A loop that returns has run each of its steps. -/
theorem loop_steps {σ : Type} {n : Nat} {body : Nat → σ → Except Err σ} {s s' : σ}
    (h : loop n body s = .ok s') {k : Nat} (hk : k < n) :
    ∃ c c', loop k body s = .ok c ∧ body k c = .ok c' := by
  induction n generalizing s' with
  | zero => omega
  | succ n ih =>
    rw [loop_succ, except_bind_eq_ok] at h
    obtain ⟨c, hc, h⟩ := h
    by_cases e : k = n
    · subst e
      exact ⟨c, s', hc, h⟩
    · exact ih hc (by omega)

theorem vecAt_cover {p q : Nat} {A : Nat → Nat → Mat R} (h : p = 1 ∨ q = 1) {i j : Nat}
    (hi : i < p) (hj : j < q) : vecAt p q A (i + j) = .ok (A i j) := by
  by_cases hp : p = 1
  · subst hp
    have : i = 0 := by omega
    subst this
    simp [vecAt, assertM, hj]
  · have hq : q = 1 := by omega
    subst hq
    have : j = 0 := by omega
    subst this
    simp [vecAt, assertM, hp, hi]

theorem noEmpty_opBlk {t : Bool} {p q : Nat} {A : Nat → Nat → Mat R}
    (h : ∀ i < opDim0 t p q, ∀ k < opDim1 t p q, (opBlk t A i k).NoEmptyEntries) :
    (Mat.hier p q A).NoEmptyEntries := by
  intro i hi j hj
  cases t
  · exact h i hi j hj
  · exact h j hj i hi

theorem scale_noEmpty [Mul R] {A X : Mat R} {b : R} (h : A.scale b = .ok X) : A.NoEmpty := by
  induction A generalizing X with
  | dense | lowRank => trivial
  | empty => cases h
  | hier br bc blk ih =>
    simp only [scale, except_bind_eq_ok] at h
    obtain ⟨g, hg, -⟩ := h
    exact fun i hi j hj => ih i j (collect2_ok hg i hi j hj)

theorem NoEmpty.entries {A : Mat R} (h : A.NoEmpty) : A.NoEmptyEntries := by
  induction A with
  | dense | lowRank => trivial
  | empty => cases h
  | hier br bc blk ih => exact fun i hi j hj => ih i j (h i hi j hj)

/-- A matrix without rows has no entries. -/
theorem noEntries_rows {A : Mat R} (w : A.WF) (h : A.nRows = 0) : A.NoEmptyEntries := by
  induction A with
  | dense | lowRank => trivial
  | empty m n => exact Or.inl h
  | hier br bc blk ih =>
    rw [nRows_hier] at h
    simp only [WF] at w
    intro i hi j hj
    have b := w.2.2 i hi j hj
    refine ih i j b.1 ?_
    rw [b.2.1]
    exact Finset.sum_eq_zero_iff.1 h i (by simpa using hi)

/-- A matrix without columns has no entries. -/
theorem noEntries_cols {A : Mat R} (w : A.WF) (h : A.nCols = 0) : A.NoEmptyEntries := by
  induction A with
  | dense | lowRank => trivial
  | empty m n => exact Or.inr h
  | hier br bc blk ih =>
    rw [nCols_hier] at h
    simp only [WF] at w
    intro i hi j hj
    have b := w.2.2 i hi j hj
    refine ih i j b.1 ?_
    rw [b.2.2]
    exact Finset.sum_eq_zero_iff.1 h j (by simpa using hj)

theorem noEntries_op {A : Mat R} {t : Bool} (w : A.WF) (h : A.opRows t = 0) : A.NoEmptyEntries := by
  cases t
  · exact noEntries_rows w h
  · exact noEntries_cols w h

/-- Blocks below a leading part that already has all the rows have no rows. -/
theorem tail_zero {h : Nat → Nat} {K m i : Nat} (hK : K ≤ i) (hi : i < m)
    (e : psum h m = psum h K) : h i = 0 := by
  have h3 : ∑ k ∈ range K, h k + h i ≤ ∑ k ∈ range m, h k := by
    rw [add_comm, ← Finset.sum_insert (s := range K) (a := i) (f := h) (by simpa using hK)]
    refine Finset.sum_le_sum_of_subset ?_
    intro x hx
    simp only [Finset.mem_insert, Finset.mem_range] at hx ⊢
    omega
  simp only [psum] at e
  omega

section
variable [CommRing R]

theorem scaleAdd_noEmpty {o : LrOps R} {C X : Mat R} {β : R} {L : LowRank R}
    (h : scaleAdd o C β L = .ok X) : C.NoEmptyEntries := by
  simp only [scaleAdd, except_bind_eq_ok] at h
  obtain ⟨_, h, -⟩ := h
  exact (scale_noEmpty h).entries

/-- A product that returns has no `Empty` in its operands. -/
def Touch (g : GemmT R) : Prop :=
  ∀ A B C α β ta tb X, A.WF → A.Square → B.WF → B.Square → C.WF → C.Square →
    g A B C α β ta tb = .ok X → A.NoEmptyEntries ∧ B.NoEmptyEntries ∧ C.NoEmptyEntries ∧
      A.opRows ta = C.nRows ∧ A.opCols ta = B.opRows tb

/-- The same for products with a new result. -/
def TouchNew (gn : GemmNewT R) : Prop :=
  ∀ A B α ta tb X, A.WF → A.Square → B.WF → B.Square →
    gn A B α ta tb = .ok X → A.NoEmptyEntries ∧ B.NoEmptyEntries

omit [CommRing R] in
theorem wf00 {p q : Nat} {A : Nat → Nat → Mat R} (h : (Mat.hier p q A).WF)
    (hs : (Mat.hier p q A).Square) : (A 0 0).WF ∧ (A 0 0).Square := by
  simp only [WF] at h
  exact ⟨(h.2.2 0 h.1 0 h.2.1).1, hs 0 h.1 0 h.2.1⟩

omit [CommRing R] in
theorem noEmpty11 {A : Nat → Nat → Mat R} (h : (A 0 0).NoEmptyEntries) : (Mat.hier 1 1 A).NoEmptyEntries := by
  intro i hi j hj
  have : i = 0 := by omega
  have : j = 0 := by omega
  subst_vars
  exact h

theorem opDims {t : Bool} {p q : Nat} (hp : 0 < p) (hq : 0 < q) :
    0 < opDim0 t p q ∧ 0 < opDim1 t p q := by
  cases t <;> exact ⟨by assumption, by assumption⟩

theorem gemmToDense_touch {g : GemmT R} (hf : GemmFit g) (hg : Touch g) {A B X : Mat R} {c : Dense R}
    {α β : R} {ta tb : Bool} (hA : A.WF) (hAs : A.Square) (hB : B.WF) (hBs : B.Square)
    (h : gemmToDense g A B c α β ta tb = .ok X) : A.NoEmptyEntries ∧ B.NoEmptyEntries := by
  have AH : ∀ (r s : Nat) (B : Nat → Nat → Mat R), (Mat.hier r s B).WF → (Mat.hier r s B).Square →
      (if r = 1 ∧ s = 1 then g A (B 0 0) (.dense c) α β ta tb
        else do
          let CH ← (Mat.dense c).split 1 (opDim1 tb r s)
          let CH' ← g A (.hier r s B) CH α β ta tb
          joinDense c CH') = .ok X → A.NoEmptyEntries ∧ (Mat.hier r s B).NoEmptyEntries := by
    intro r s B hB hBs h
    have p := hB
    simp only [WF] at p
    split at h
    · rename_i e
      obtain ⟨rfl, rfl⟩ := e
      have w := wf00 hB hBs
      have t := hg _ _ _ _ _ _ _ _ hA hAs w.1 w.2 (by trivial) (by trivial) h
      exact ⟨t.1, noEmpty11 t.2.1⟩
    · simp only [except_bind_eq_ok] at h
      obtain ⟨CH, hCH, CH', h, -⟩ := h
      have w := split_dense_fit (by omega) (opDims p.1 p.2.1).2 hCH
      have t := hg _ _ _ _ _ _ _ _ hA hAs hB hBs w.1 w.2 h
      exact ⟨t.1, t.2.1⟩
  have HB : ∀ (p q : Nat) (A : Nat → Nat → Mat R), (Mat.hier p q A).WF → (Mat.hier p q A).Square →
      (if p = 1 ∧ q = 1 then g (A 0 0) B (.dense c) α β ta tb
        else do
          let CH ← (Mat.dense c).split (opDim0 ta p q) 1
          let CH' ← g (.hier p q A) B CH α β ta tb
          joinDense c CH') = .ok X → (Mat.hier p q A).NoEmptyEntries ∧ B.NoEmptyEntries := by
    intro p q A hA hAs h
    have pp := hA
    simp only [WF] at pp
    split at h
    · rename_i e
      obtain ⟨rfl, rfl⟩ := e
      have w := wf00 hA hAs
      have t := hg _ _ _ _ _ _ _ _ w.1 w.2 hB hBs (by trivial) (by trivial) h
      exact ⟨noEmpty11 t.1, t.2.1⟩
    · simp only [except_bind_eq_ok] at h
      obtain ⟨CH, hCH, CH', h, -⟩ := h
      have w := split_dense_fit (opDims pp.1 pp.2.1).1 (by omega) hCH
      have t := hg _ _ _ _ _ _ _ _ hA hAs hB hBs w.1 w.2 h
      exact ⟨t.1, t.2.1⟩
  cases A with
  | dense a =>
    cases B with
    | dense b => exact ⟨trivial, trivial⟩
    | lowRank b => exact ⟨trivial, trivial⟩
    | hier r s B => exact AH r s B hB hBs h
    | empty => cases h
  | lowRank a =>
    cases B with
    | dense b => exact ⟨trivial, trivial⟩
    | lowRank b => exact ⟨trivial, trivial⟩
    | hier r s B => exact AH r s B hB hBs h
    | empty => cases h
  | empty =>
    cases B with
    | hier r s B => exact AH r s B hB hBs h
    | dense => cases h
    | lowRank => cases h
    | empty => cases h
  | hier p q A =>
    cases B with
    | dense b => exact HB p q A hA hAs h
    | lowRank b => exact HB p q A hA hAs h
    | empty => exact HB p q A hA hAs h
    | hier r s B =>
      have pA := hA
      simp only [WF] at pA
      have pB := hB
      simp only [WF] at pB
      simp only [gemmToDense, gemmHHD, except_bind_eq_ok, assertM_eq_ok, decide_eq_true_eq] at h
      obtain ⟨_, hd, h⟩ := h
      split at h
      · rename_i e
        have key : ∀ k < opDim1 ta p q, ∃ a b, vecAt p q A k = .ok a ∧ vecAt r s B k = .ok b ∧
            a.NoEmptyEntries ∧ b.NoEmptyEntries := by
          intro k hk
          obtain ⟨x, x', hx, hx'⟩ := loop_steps h hk
          have w : (Mat.dense c).SameShape x ∧ x.Fit := by
            refine loop_fit (C := .dense c) trivial trivial (fun k _ x x' hx hxs e => ?_) hx
            simp only [except_bind_eq_ok] at e
            obtain ⟨a, ha, b, hb, e⟩ := e
            have wa := vecAt_fit hA hAs ha
            have wb := vecAt_fit hB hBs hb
            exact hf _ _ _ _ _ _ _ _ wa.1 wa.2 wb.1 wb.2 hx hxs e
          have w := Fit.wf (A := .dense c) trivial w.1 w.2
          simp only [except_bind_eq_ok] at hx'
          obtain ⟨a, ha, b, hb, e⟩ := hx'
          have wa := vecAt_fit hA hAs ha
          have wb := vecAt_fit hB hBs hb
          have t := hg _ _ _ _ _ _ _ _ wa.1 wa.2 wb.1 wb.2 w.1 w.2 e
          exact ⟨a, b, ha, hb, t.1, t.2.1⟩
        have h1 : p = 1 ∨ q = 1 := by
          cases ta
          · exact Or.inl e.1
          · exact Or.inr e.1
        have h2 : r = 1 ∨ s = 1 := by
          cases tb
          · exact Or.inr e.2
          · exact Or.inl e.2
        constructor
        · intro i hi j hj
          obtain ⟨a, b, ha, -, na, -⟩ := key (i + j) (by cases ta <;> simp_all [opDim0, opDim1])
          rw [vecAt_cover h1 hi hj] at ha
          rwa [Except.ok.inj ha]
        · intro i hi j hj
          obtain ⟨a, b, -, hb, -, nb⟩ := key (i + j) (by
            rw [hd]; cases tb <;> simp_all [opDim0, opDim1])
          rw [vecAt_cover h2 hi hj] at hb
          rwa [Except.ok.inj hb]
      · simp only [except_bind_eq_ok] at h
        obtain ⟨CH, hCH, CH', h, -⟩ := h
        have w := split_dense_fit (opDims pA.1 pA.2.1).1 (opDims pB.1 pB.2.1).2 hCH
        have t := hg _ _ _ _ _ _ _ _ hA hAs hB hBs w.1 w.2 h
        exact ⟨t.1, t.2.1⟩

theorem gemmToLowRank_touch [DecidableEq R] {o : LrOps R} {g : GemmT R} (hg : Touch g)
    {gn : GemmNewT R} (hn : TouchNew gn) {A B X : Mat R} {c : LowRank R} {α β : R} {ta tb : Bool}
    (hA : A.WF) (hAs : A.Square) (hB : B.WF) (hBs : B.Square) (hC : (Mat.lowRank c).WF)
    (hCs : (Mat.lowRank c).Square) (h : gemmToLowRank o g gn A B c α β ta tb = .ok X) :
    A.NoEmptyEntries ∧ B.NoEmptyEntries := by
  cases A with
  | empty => cases B <;> cases h
  | dense a =>
    cases B with
    | dense | lowRank => exact ⟨trivial, trivial⟩
    | empty => cases h
    | hier r s B =>
      have p := hB
      simp only [WF] at p
      have d := opDims (t := tb) p.1 p.2.1
      simp only [gemmToLowRank, except_bind_eq_ok] at h
      obtain ⟨HA, hHA, h⟩ := h
      have w := split_dense_fit (by split <;> omega) (by split <;> omega) hHA
      exact ⟨trivial, (hg _ _ _ _ _ _ _ _ w.1 w.2 hB hBs hC hCs h).2.1⟩
  | lowRank a =>
    cases B with
    | dense | lowRank => exact ⟨trivial, trivial⟩
    | empty => cases h
    | hier r s B =>
      simp only [gemmToLowRank, except_bind_eq_ok] at h
      obtain ⟨V, hV, -⟩ := h
      exact ⟨trivial, (hn _ _ _ _ _ _ (by trivial) (by trivial) hB hBs hV).2⟩
  | hier p q A =>
    cases B with
    | dense b =>
      have p := hA
      simp only [WF] at p
      have d := opDims (t := ta) p.1 p.2.1
      simp only [gemmToLowRank, except_bind_eq_ok] at h
      obtain ⟨HB, hHB, h⟩ := h
      have w := split_dense_fit (by split <;> omega) (by split <;> omega) hHB
      exact ⟨(hg _ _ _ _ _ _ _ _ hA hAs w.1 w.2 hC hCs h).1, trivial⟩
    | lowRank b =>
      simp only [gemmToLowRank, except_bind_eq_ok] at h
      obtain ⟨V, hV, -⟩ := h
      exact ⟨(hn _ _ _ _ _ _ hA hAs (by trivial) (by trivial) hV).1, trivial⟩
    | empty => cases h
    | hier r s B =>
      simp only [gemmToLowRank, gemmHHLr] at h
      split at h
      · simp only [except_bind_eq_ok] at h
        obtain ⟨cd, -, cd', h, -⟩ := h
        have t := hg _ _ _ _ _ _ _ _ hA hAs hB hBs (by trivial) (by trivial) h
        exact ⟨t.1, t.2.1⟩
      · simp only [except_bind_eq_ok] at h
        obtain ⟨ab, h, -⟩ := h
        exact hn _ _ _ _ _ _ hA hAs hB hBs h

omit [CommRing R] in
theorem gemmRowLoop_touch {g : GemmT R} (hg : Touch g) {r s m n : Nat} {A X : Mat R}
    {B C : Nat → Nat → Mat R} {α β : R} {ta tb : Bool} (hA : A.WF) (hAs : A.Square)
    (hB : (Mat.hier r s B).WF) (hBs : (Mat.hier r s B).Square) (hC : (Mat.hier m n C).WF)
    (hCs : (Mat.hier m n C).Square) (e0 : opDim0 tb r s = 1) (em : m = 1) (en : opDim1 tb r s = n)
    (h : gemmRowLoop g A r s B m n C α β ta tb = .ok X) :
    A.NoEmptyEntries ∧ (Mat.hier r s B).NoEmptyEntries ∧ (Mat.hier m n C).NoEmptyEntries := by
  simp only [gemmRowLoop, except_bind_eq_ok] at h
  obtain ⟨f, hf, -⟩ := h
  have pC := hC
  simp only [WF] at pC
  have key : ∀ k < n, ∃ b c, vecAt r s B k = .ok b ∧ vecAt m n C k = .ok c ∧
      A.NoEmptyEntries ∧ b.NoEmptyEntries ∧ c.NoEmptyEntries := by
    intro k hk
    have e := collect_ok hf k (by omega)
    simp only [except_bind_eq_ok] at e
    obtain ⟨b, hb, c, hc, e⟩ := e
    have wb := vecAt_fit hB hBs hb
    have wc := vecAt_fit hC hCs hc
    have t := hg _ _ _ _ _ _ _ _ hA hAs wb.1 wb.2 wc.1 wc.2 e
    exact ⟨b, c, hb, hc, t.1, t.2.1, t.2.2.1⟩
  have h2 : r = 1 ∨ s = 1 := by
    cases tb
    · exact Or.inl e0
    · exact Or.inr e0
  refine ⟨?_, ?_, ?_⟩
  · obtain ⟨_, _, _, _, h, _⟩ := key 0 pC.2.1
    exact h
  · intro i hi j hj
    obtain ⟨b, c, hb, -, -, nb, -⟩ := key (i + j) (by
      rw [← en]; cases tb <;> simp_all [opDim0, opDim1])
    rw [vecAt_cover h2 hi hj] at hb
    rwa [Except.ok.inj hb]
  · intro i hi j hj
    obtain ⟨b, c, -, hc, -, -, nc⟩ := key (i + j) (by omega)
    rw [vecAt_cover (Or.inl em) hi hj] at hc
    rwa [Except.ok.inj hc]

omit [CommRing R] in
theorem gemmColLoop_touch {g : GemmT R} (hg : Touch g) {p q m n : Nat} {B X : Mat R}
    {A C : Nat → Nat → Mat R} {α β : R} {ta tb : Bool} (hB : B.WF) (hBs : B.Square)
    (hA : (Mat.hier p q A).WF) (hAs : (Mat.hier p q A).Square) (hC : (Mat.hier m n C).WF)
    (hCs : (Mat.hier m n C).Square) (e0 : opDim1 ta p q = 1) (en : n = 1)
    (hm : (Mat.hier p q A).opRows ta = (Mat.hier m n C).nRows)
    (h : gemmColLoop g p q A B m n C α β ta tb = .ok X) :
    (Mat.hier p q A).NoEmptyEntries ∧ B.NoEmptyEntries ∧ (Mat.hier m n C).NoEmptyEntries := by
  simp only [gemmColLoop, except_bind_eq_ok] at h
  obtain ⟨f, hf, -⟩ := h
  have pC := hC
  simp only [WF] at pC
  have pA := hA
  simp only [WF] at pA
  have h2 : p = 1 ∨ q = 1 := by
    cases ta
    · exact Or.inr e0
    · exact Or.inl e0
  subst en
  have vC : ∀ {k : Nat} {c : Mat R}, vecAt m 1 C k = .ok c → k < m ∧ c = C k 0 := by
    intro k c hc
    simp only [vecAt, except_bind_eq_ok, assertM_eq_ok, decide_eq_true_eq] at hc
    obtain ⟨-, -, -, hk, e⟩ := hc
    have e := Except.ok.inj e
    by_cases h1 : m = 1
    · subst h1
      simp at hk e
      subst hk
      exact ⟨by omega, e.symm⟩
    · simp [h1] at hk e
      exact ⟨hk, e.symm⟩
  have key : ∀ k < opDim0 ta p q, ∃ a, vecAt p q A k = .ok a ∧ k < m ∧
      a.NoEmptyEntries ∧ B.NoEmptyEntries ∧ (C k 0).NoEmptyEntries ∧ a.opRows ta = (C k 0).nRows := by
    intro k hk
    have e := collect_ok hf k (by omega)
    simp only [except_bind_eq_ok] at e
    obtain ⟨b, hb, c, hc, e⟩ := e
    have wb := vecAt_fit hA hAs hb
    have wc := vecAt_fit hC hCs hc
    obtain ⟨hk', rfl⟩ := vC hc
    have t := hg _ _ _ _ _ _ _ _ wb.1 wb.2 hB hBs wc.1 wc.2 e
    exact ⟨b, hb, hk', t.1, t.2.1, t.2.2.1, t.2.2.2.1⟩
  have hsum : (Mat.hier p q A).opRows ta = ∑ k ∈ range (opDim0 ta p q), (C k 0).nRows := by
    cases ta
    · simp only [opDim1, Bool.false_eq_true, if_false] at e0
      subst e0
      simp only [opRows, Bool.false_eq_true, if_false, nRows_hier]
      refine Finset.sum_congr rfl (fun i hi => ?_)
      have hi : i < p := by simpa [opDim0] using hi
      obtain ⟨a, ha, -, -, -, -, e⟩ := key i hi
      have := vecAt_cover (A := A) (Or.inr rfl) hi (j := 0) (by omega)
      rw [Nat.add_zero, ha] at this
      beta_reduce
      rw [← Except.ok.inj this]
      exact e
    · simp only [opDim1, if_true] at e0
      subst e0
      simp only [opRows, if_true, nCols_hier]
      refine Finset.sum_congr rfl (fun i hi => ?_)
      have hi : i < q := by simpa [opDim0] using hi
      obtain ⟨a, ha, -, -, -, -, e⟩ := key i hi
      have := vecAt_cover (A := A) (Or.inl rfl) (i := 0) (by omega) hi
      rw [Nat.zero_add, ha] at this
      beta_reduce
      rw [← Except.ok.inj this]
      exact e
  refine ⟨?_, ?_, ?_⟩
  · intro i hi j hj
    obtain ⟨b, hb, -, nb, -⟩ := key (i + j) (by
      cases ta <;> simp_all [opDim0, opDim1])
    rw [vecAt_cover h2 hi hj] at hb
    rwa [Except.ok.inj hb]
  · obtain ⟨_, _, _, _, h, _⟩ := key 0 (opDims pA.1 pA.2.1).1
    exact h
  · intro i hi j hj
    have : j = 0 := by omega
    subst this
    by_cases hio : i < opDim0 ta p q
    · obtain ⟨_, _, _, _, _, h, _⟩ := key i hio
      exact h
    · refine noEntries_rows (pC.2.2 i hi 0 hj).1 ?_
      have hle : opDim0 ta p q ≤ m := by
        obtain ⟨_, _, h, _⟩ := key (opDim0 ta p q - 1) (by
          have := (opDims (t := ta) pA.1 pA.2.1).1; omega)
        omega
      have h3 : ∑ k ∈ range (opDim0 ta p q), (C k 0).nRows + (C i 0).nRows ≤
          ∑ k ∈ range m, (C k 0).nRows := by
        rw [add_comm, ← Finset.sum_insert (s := range (opDim0 ta p q)) (a := i)
          (f := fun k => (C k 0).nRows) (by simpa using Nat.le_of_not_lt hio)]
        refine Finset.sum_le_sum_of_subset ?_
        intro x hx
        simp only [Finset.mem_insert, Finset.mem_range] at hx ⊢
        omega
      rw [nRows_hier] at hm
      simp only [psum] at hm
      omega

theorem gemmToHier_touch [DecidableEq R] {o : LrOps R} {g : GemmT R} (hf : GemmFit g) (hg : Touch g)
    {gn : GemmNewT R} (hn : TouchNew gn) {A B X : Mat R} {m n : Nat} {C : Nat → Nat → Mat R} {α β : R}
    {ta tb : Bool} (hA : A.WF) (hAs : A.Square) (hB : B.WF) (hBs : B.Square)
    (hC : (Mat.hier m n C).WF) (hCs : (Mat.hier m n C).Square)
    (hm : A.opRows ta = (Mat.hier m n C).nRows)
    (h : gemmToHier o g gn A B m n C α β ta tb = .ok X) :
    A.NoEmptyEntries ∧ B.NoEmptyEntries ∧ (Mat.hier m n C).NoEmptyEntries := by
  have pC := hC
  simp only [WF] at pC
  cases A with
  | empty => cases B <;> cases h
  | dense a =>
    cases B with
    | empty => cases h
    | lowRank b =>
      simp only [gemmToHier, gemmDLr, except_bind_eq_ok] at h
      obtain ⟨_, -, h⟩ := h
      exact ⟨trivial, trivial, scaleAdd_noEmpty h⟩
    | dense b =>
      refine ⟨trivial, trivial, ?_⟩
      simp only [gemmToHier, gemmDDH] at h
      split at h
      · cases h
      split at h
      · simp only [except_bind_eq_ok] at h
        obtain ⟨AH, hAH, h⟩ := h
        have w := split_dense_fit (by split <;> omega) (by split <;> omega) hAH
        exact (hg _ _ _ _ _ _ _ _ w.1 w.2 hB hBs hC hCs h).2.2.1
      split at h
      · simp only [except_bind_eq_ok] at h
        obtain ⟨AH, hAH, h⟩ := h
        have w := split_dense_fit (by split <;> omega) (by split <;> omega) hAH
        exact (hg _ _ _ _ _ _ _ _ hA hAs w.1 w.2 hC hCs h).2.2.1
      · simp only [except_bind_eq_ok] at h
        obtain ⟨AH, hAH, BH, hBH, h⟩ := h
        have w := split_dense_fit (by split <;> omega) (by split <;> omega) hAH
        have w' := split_dense_fit (by split <;> omega) (by split <;> omega) hBH
        exact (hg _ _ _ _ _ _ _ _ w.1 w.2 w'.1 w'.2 hC hCs h).2.2.1
    | hier r s B =>
      have p := hB
      simp only [WF] at p
      have d := opDims (t := tb) p.1 p.2.1
      refine ⟨trivial, ?_⟩
      simp only [gemmToHier, gemmDHH, except_bind_eq_ok, assertM_eq_ok, decide_eq_true_eq] at h
      obtain ⟨_, en, h⟩ := h
      split at h
      · rename_i e
        obtain ⟨rfl, rfl⟩ := e
        have w := wf00 hB hBs
        have t := hg _ _ _ _ _ _ _ _ hA hAs w.1 w.2 hC hCs h
        exact ⟨noEmpty11 t.2.1, t.2.2.1⟩
      split at h
      · rename_i e
        exact (gemmRowLoop_touch hg hA hAs hB hBs hC hCs e.1 e.2 en h).2
      · simp only [except_bind_eq_ok] at h
        obtain ⟨AH, hAH, h⟩ := h
        have w := split_dense_fit (by split <;> omega) (by split <;> omega) hAH
        have t := hg _ _ _ _ _ _ _ _ w.1 w.2 hB hBs hC hCs h
        exact ⟨t.2.1, t.2.2.1⟩
  | lowRank a =>
    cases B with
    | empty => cases h
    | dense b =>
      simp only [gemmToHier, gemmLrD, except_bind_eq_ok] at h
      obtain ⟨_, -, h⟩ := h
      exact ⟨trivial, trivial, scaleAdd_noEmpty h⟩
    | lowRank b =>
      simp only [gemmToHier, gemmLrLr, except_bind_eq_ok] at h
      obtain ⟨_, -, _, -, _, -, h⟩ := h
      exact ⟨trivial, trivial, scaleAdd_noEmpty h⟩
    | hier r s B =>
      refine ⟨trivial, ?_⟩
      simp only [gemmToHier, gemmLrHH, except_bind_eq_ok, assertM_eq_ok, decide_eq_true_eq] at h
      obtain ⟨_, en, h⟩ := h
      split at h
      · rename_i e
        obtain ⟨rfl, rfl⟩ := e
        have w := wf00 hB hBs
        have t := hg _ _ _ _ _ _ _ _ hA hAs w.1 w.2 hC hCs h
        exact ⟨noEmpty11 t.2.1, t.2.2.1⟩
      split at h
      · rename_i e
        exact (gemmRowLoop_touch hg hA hAs hB hBs hC hCs e.1 e.2 en h).2
      · simp only [except_bind_eq_ok] at h
        obtain ⟨V, hV, _, -, h⟩ := h
        exact ⟨(hn _ _ _ _ _ _ (by trivial) (by trivial) hB hBs hV).2, scaleAdd_noEmpty h⟩
  | hier p q A =>
    have pA := hA
    simp only [WF] at pA
    have d := opDims (t := ta) pA.1 pA.2.1
    cases B with
    | empty => cases h
    | dense b =>
      simp only [gemmToHier, gemmHDH] at h
      split at h
      · rename_i e
        obtain ⟨rfl, rfl⟩ := e
        have w := wf00 hA hAs
        have t := hg _ _ _ _ _ _ _ _ w.1 w.2 hB hBs hC hCs h
        exact ⟨noEmpty11 t.1, trivial, t.2.2.1⟩
      split at h
      · rename_i e
        exact gemmColLoop_touch hg hB hBs hA hAs hC hCs e.1 e.2 hm h
      · simp only [except_bind_eq_ok] at h
        obtain ⟨BH, hBH, h⟩ := h
        have w := split_dense_fit (by split <;> omega) (by split <;> omega) hBH
        have t := hg _ _ _ _ _ _ _ _ hA hAs w.1 w.2 hC hCs h
        exact ⟨t.1, trivial, t.2.2.1⟩
    | lowRank b =>
      simp only [gemmToHier, gemmHLrH] at h
      split at h
      · rename_i e
        obtain ⟨rfl, rfl⟩ := e
        have w := wf00 hA hAs
        have t := hg _ _ _ _ _ _ _ _ w.1 w.2 hB hBs hC hCs h
        exact ⟨noEmpty11 t.1, trivial, t.2.2.1⟩
      split at h
      · rename_i e
        exact gemmColLoop_touch hg hB hBs hA hAs hC hCs e.1 e.2 hm h
      · simp only [except_bind_eq_ok] at h
        obtain ⟨U, hU, _, -, h⟩ := h
        exact ⟨(hn _ _ _ _ _ _ hA hAs (by trivial) (by trivial) hU).1, trivial, scaleAdd_noEmpty h⟩
    | hier r s B =>
      have pB := hB
      simp only [WF] at pB
      have dB := opDims (t := tb) pB.1 pB.2.1
      simp only [gemmToHier, gemmHHH, except_bind_eq_ok, assertM_eq_ok, decide_eq_true_eq] at h
      obtain ⟨_, e0, _, e1, _, e2, f, hcol, -⟩ := h
      have key : ∀ i < m, ∀ j < n, ∀ k < opDim1 ta p q, (opBlk ta A i k).NoEmptyEntries ∧
          (opBlk tb B k j).NoEmptyEntries ∧ (k = 0 → (C i j).NoEmptyEntries) := by
        intro i hi j hj k hk
        have hl := collect2_ok hcol i hi j hj
        obtain ⟨x, x', hx, hx'⟩ := loop_steps hl hk
        have wC := (pC.2.2 i hi j hj).1
        have wCs := hCs i hi j hj
        have w : (C i j).SameShape x ∧ x.Fit := by
          refine loop_fit wC wCs (fun l hl' y y' hy hys e => ?_) hx
          have wa := WF_opBlk hA hAs (t := ta) (by omega : i < opDim0 ta p q)
            (by omega : l < opDim1 ta p q)
          have wb := WF_opBlk hB hBs (t := tb) (by omega : l < opDim0 tb r s)
            (by omega : j < opDim1 tb r s)
          exact hf _ _ _ _ _ _ _ _ wa.1 wa.2 wb.1 wb.2 hy hys e
        have w := Fit.wf wC w.1 w.2
        have wa := WF_opBlk hA hAs (t := ta) (by omega : i < opDim0 ta p q) hk
        have wb := WF_opBlk hB hBs (t := tb) (by omega : k < opDim0 tb r s)
          (by omega : j < opDim1 tb r s)
        have t := hg _ _ _ _ _ _ _ _ wa.1 wa.2 wb.1 wb.2 w.1 w.2 hx'
        refine ⟨t.1, t.2.1, ?_⟩
        rintro rfl
        rw [loop_zero] at hx
        rw [Except.ok.inj hx]
        exact t.2.2.1
      refine ⟨noEmpty_opBlk (t := ta) fun i hi k hk => (key i (by omega) 0 pC.2.1 k hk).1,
        noEmpty_opBlk (t := tb) fun k hk j hj => (key 0 pC.1 j (by omega) k (by omega)).2.1,
        fun i hi j hj => (key i hi j hj 0 d.2).2.2 rfl⟩

omit [CommRing R] in
theorem opRows_blocks {t : Bool} {p q : Nat} {A : Nat → Nat → Mat R} :
    (Mat.hier p q A).opRows t = psum (fun k => (opBlk t A k 0).opRows t) (opDim0 t p q) := by
  cases t
  · exact nRows_hier (bc := q) ..
  · exact nCols_hier (br := p) ..

omit [CommRing R] in
theorem opCols_blocks {t : Bool} {p q : Nat} {A : Nat → Nat → Mat R} :
    (Mat.hier p q A).opCols t = psum (fun k => (opBlk t A 0 k).opCols t) (opDim1 t p q) := by
  cases t
  · exact nCols_hier (br := p) ..
  · exact nRows_hier (bc := q) ..

omit [CommRing R] in
theorem opRows_col {t : Bool} {p q : Nat} {A : Nat → Nat → Mat R} (h : (Mat.hier p q A).WF) {k j : Nat}
    (hk : k < opDim0 t p q) (hj : j < opDim1 t p q) :
    (opBlk t A k j).opRows t = (opBlk t A k 0).opRows t := by
  simp only [WF] at h
  cases t
  · exact (h.2.2 k hk j hj).2.1
  · exact (h.2.2 j hj k hk).2.2

theorem gemmNewOmm_touch {g : GemmT R} (hf : GemmFit g) (hg : Touch g) {gn : GemmNewT R}
    (hnf : GemmNewFit gn) (hn : TouchNew gn) {A B X : Mat R} {α : R} {ta tb : Bool}
    (hA : A.WF) (hAs : A.Square) (hB : B.WF) (hBs : B.Square) (hd : A.opCols ta = B.opRows tb)
    (h : gemmNewOmm g gn A B α ta tb = .ok X) : A.NoEmptyEntries ∧ B.NoEmptyEntries := by
  have plain : ∀ {D : Dense R}, g A B (.dense D) α 0 ta tb = .ok X → A.NoEmptyEntries ∧ B.NoEmptyEntries := by
    intro D h
    have t := hg _ _ _ _ _ _ _ _ hA hAs hB hBs (by trivial) (by trivial) h
    exact ⟨t.1, t.2.1⟩
  cases A with
  | dense | lowRank | empty => cases B <;> exact plain h
  | hier p q A =>
    cases B with
    | dense | lowRank | empty => exact plain h
    | hier r s B =>
      have pA := hA
      simp only [WF] at pA
      have d := opDims (t := ta) pA.1 pA.2.1
      have pB := hB
      simp only [WF] at pB
      have dB := opDims (t := tb) pB.1 pB.2.1
      simp only [gemmNewOmm, gemmNewHH] at h
      split at h
      · exact plain h
      · simp only [except_bind_eq_ok] at h
        obtain ⟨f, hcol, -⟩ := h
        have key : ∀ i < opDim0 ta p q, ∀ j < opDim1 tb r s, ∀ k < opDim1 ta p q,
            (opBlk ta A i k).NoEmptyEntries ∧ k < opDim0 tb r s ∧ (opBlk tb B k j).NoEmptyEntries ∧
            (opBlk ta A i k).opCols ta = (opBlk tb B k j).opRows tb := by
          intro i hi j hj k hk
          have hl := collect2_ok hcol i hi j hj
          simp only [except_bind_eq_ok] at hl
          obtain ⟨a, ha, b, hb, c, hc, hl⟩ := hl
          simp only [opAt, except_bind_eq_ok, assertM_eq_ok, decide_eq_true_eq] at ha hb
          obtain ⟨_, -, _, -, ha⟩ := ha
          obtain ⟨_, k0, _, -, hb⟩ := hb
          cases Except.ok.inj ha
          cases Except.ok.inj hb
          have wa := WF_opBlk hA hAs (t := ta) hi d.2
          have wb := WF_opBlk hB hBs (t := tb) k0 hj
          cases k with
          | zero =>
            have t := hn _ _ _ _ _ _ wa.1 wa.2 wb.1 wb.2 hc
            exact ⟨t.1, k0, t.2, (hnf _ _ _ _ _ _ wa.1 wa.2 wb.1 wb.2 hc).2.2.2.2⟩
          | succ k =>
            have wc := hnf _ _ _ _ _ _ wa.1 wa.2 wb.1 wb.2 hc
            obtain ⟨x, x', hx, hx'⟩ := loop_steps hl (k := k) (by omega)
            have w : c.SameShape x ∧ x.Fit := by
              refine loop_fit wc.1 wc.2.1 (fun l hl' y y' hy hys e => ?_) hx
              simp only [opAt, except_bind_eq_ok, assertM_eq_ok, decide_eq_true_eq] at e
              obtain ⟨a, ⟨_, -, _, -, ha⟩, b, ⟨_, k1, _, -, hb⟩, e⟩ := e
              cases Except.ok.inj ha
              cases Except.ok.inj hb
              have wa := WF_opBlk hA hAs (t := ta) hi (by omega : l + 1 < opDim1 ta p q)
              have wb := WF_opBlk hB hBs (t := tb) k1 hj
              exact hf _ _ _ _ _ _ _ _ wa.1 wa.2 wb.1 wb.2 hy hys e
            have w := Fit.wf wc.1 w.1 w.2
            simp only [opAt, except_bind_eq_ok, assertM_eq_ok, decide_eq_true_eq] at hx'
            obtain ⟨a, ⟨_, -, _, -, ha⟩, b, ⟨_, k1, _, -, hb⟩, e⟩ := hx'
            cases Except.ok.inj ha
            cases Except.ok.inj hb
            have wa := WF_opBlk hA hAs (t := ta) hi hk
            have wb := WF_opBlk hB hBs (t := tb) k1 hj
            have t := hg _ _ _ _ _ _ _ _ wa.1 wa.2 wb.1 wb.2 w.1 w.2 e
            exact ⟨t.1, k1, t.2.1, t.2.2.2.2⟩
        have h2 : psum (fun k => (opBlk tb B k 0).opRows tb) (opDim0 tb r s) =
            psum (fun k => (opBlk tb B k 0).opRows tb) (opDim1 ta p q) := by
          rw [← opRows_blocks, ← hd, opCols_blocks]
          refine Finset.sum_congr rfl (fun k hk => ?_)
          exact (key 0 d.1 0 dB.2 k (by simpa using hk)).2.2.2
        refine ⟨noEmpty_opBlk (t := ta) fun i hi k hk => (key i hi 0 dB.2 k hk).1,
          noEmpty_opBlk (t := tb) fun k hk j hj => ?_⟩
        by_cases hk' : k < opDim1 ta p q
        · exact (key 0 d.1 j hj k hk').2.2.1
        · refine noEntries_op (WF_opBlk hB hBs hk hj).1 (t := tb) ?_
          rw [opRows_col hB hk hj]
          exact tail_zero (h := fun k => (opBlk tb B k 0).opRows tb) (by omega) hk h2

/-- A product that returns has looked at every block of its operands. -/
theorem gemmBoth_touch [DecidableEq R] {o : LrOps R} (hf : o.Fits False) (fuel : Nat) :
    Touch (gemmBoth o fuel).1 ∧ TouchNew (gemmBoth o fuel).2 := by
  induction fuel with
  | zero =>
    refine ⟨?_, ?_⟩
    · intro A B C α β ta tb X _ _ _ _ _ _ h; cases h
    · intro A B α ta tb X _ _ _ _ h; cases h
  | succ n ih =>
    have fit := gemmBoth_fit hf n
    refine ⟨?_, ?_⟩
    · intro A B C α β ta tb X hA hAs hB hBs hC hCs h
      simp only [gemmBoth, except_bind_eq_ok, assertM_eq_ok, decide_eq_true_eq] at h
      obtain ⟨-, e1, -, e2, -, e3, h⟩ := h
      cases C with
      | dense c =>
        have t := gemmToDense_touch fit.1 ih.1 hA hAs hB hBs h
        exact ⟨t.1, t.2, trivial, e1, e2⟩
      | lowRank c =>
        have t := gemmToLowRank_touch ih.1 ih.2 hA hAs hB hBs hC hCs h
        exact ⟨t.1, t.2, trivial, e1, e2⟩
      | hier m n C =>
        have t := gemmToHier_touch fit.1 ih.1 ih.2 hA hAs hB hBs hC hCs e1 h
        exact ⟨t.1, t.2.1, t.2.2, e1, e2⟩
      | empty => cases h
    · intro A B α ta tb X hA hAs hB hBs h
      simp only [gemmBoth, except_bind_eq_ok, assertM_eq_ok, decide_eq_true_eq] at h
      obtain ⟨-, e, h⟩ := h
      exact gemmNewOmm_touch fit.1 ih.1 fit.2 ih.2 hA hAs hB hBs e h

end
end Mat
end Verif
