import Verif.Lemmas.Split

namespace Verif
open Finset

variable {R : Type}

namespace Mat

section
variable [CommRing R]

theorem fillDenseFrom_ok (A : Mat R) (hA : A.WF) (B : Dense R)
    (h0 : B.rows = A.nRows) (h1 : B.cols = A.nCols) :
    ∃ D, A.fillDenseFrom B = .ok D ∧ D.rows = B.rows ∧ D.cols = B.cols ∧
      ∀ i < B.rows, ∀ j < B.cols, D.val i j = A.entry i j := by
  induction A generalizing B with
  | dense d =>
    simp only [nRows] at h0
    simp only [nCols] at h1
    refine ⟨⟨B.rows, B.cols, fun i j => d.val (0 + i) (0 + j)⟩, ?_, rfl, rfl, ?_⟩
    · simp [fillDenseFrom, h0, h1, assertM]
    · intro i _ j _; simp [entry]
  | lowRank l =>
    simp only [WF] at hA
    obtain ⟨D, hD, e1, e2, e3⟩ := fillDense_ok l hA B (by simpa [nRows] using h0)
      (by simpa [nCols] using h1)
    exact ⟨D, by simpa [fillDenseFrom] using hD, e1, e2, fun i _ j _ => by simp [entry, e3]⟩
  | empty m n =>
    simp only [nRows] at h0
    simp only [nCols] at h1
    refine ⟨B.fill 0, ?_, rfl, rfl, ?_⟩
    · simp [fillDenseFrom, h0, h1, assertM]
    · intro i _ j _; simp [entry, Dense.fill]
  | hier br bc blk ih =>
    have hA' := hA
    simp only [WF] at hA
    obtain ⟨hbr, hbc, hA⟩ := hA
    obtain ⟨b, hb, hs, -⟩ := splitLikeH_leaf (A := .dense B) (blk := blk) (br := br) (bc := bc)
      trivial trivial (by simpa [nRows] using h0) (by simpa [nCols] using h1)
    have key : ∀ i < br, ∀ j < bc, ∃ d : Dense R,
        ((b i j).asDense >>= (blk i j).fillDenseFrom) = .ok d ∧
        ∀ r < (blk i 0).nRows, ∀ s < (blk 0 j).nCols, d.val r s = (blk i j).entry r s := by
      intro i hi j hj
      rw [hs i hi j hj]
      simp only [subBlock, asDense, except_bind_ok]
      obtain ⟨d, hd, -, -, hv⟩ := ih i j (hA i hi j hj).1
        (B.sub (psum (fun a => (blk a 0).nRows) i) (psum (fun a => (blk 0 a).nCols) j)
          (blk i 0).nRows (blk 0 j).nCols) (hA i hi j hj).2.1.symm (hA i hi j hj).2.2.symm
      exact ⟨d, hd, fun r hr s hs => hv r hr s hs⟩
    obtain ⟨g, hg⟩ := collect2_exists (m := br) (n := bc) (f := fun i j =>
        (b i j).asDense >>= (blk i j).fillDenseFrom)
      (fun i hi j hj => ⟨_, (key i hi j hj).choose_spec.1⟩)
    refine ⟨⟨B.rows, B.cols, joinVal br bc (fun i => (blk i 0).nRows)
      (fun j => (blk 0 j).nCols) g⟩, by simp only [fillDenseFrom, hb, except_bind_ok, hg],
      rfl, rfl, ?_⟩
    intro i hi j hj
    rw [h0, nRows_hier] at hi
    rw [h1, nCols_hier] at hj
    obtain ⟨p, hp, r, hr, rfl⟩ := exists_block _ _ _ hi
    obtain ⟨q, hq, s, hs', rfl⟩ := exists_block _ _ _ hj
    rw [entry_block hp hq hr hs']
    obtain ⟨d, hd, hv⟩ := key p hp q hq
    have hgpq := collect2_ok hg p hp q hq
    rw [hd] at hgpq
    simp only [joinVal, locate_at (fun a => (blk a 0).nRows) br p r hp hr,
      locate_at (fun a => (blk 0 a).nCols) bc q s hq hs']
    rw [← Except.ok.inj hgpq]
    exact hv r hr s hs'

theorem toDense_ok (A : Mat R) (hA : A.WF) :
    ∃ D, A.toDense = .ok D ∧ D.rows = A.nRows ∧ D.cols = A.nCols ∧
      ∀ i < A.nRows, ∀ j < A.nCols, D.val i j = A.entry i j :=
  fillDenseFrom_ok A hA (Dense.zero A.nRows A.nCols) rfl rfl

theorem LowRank_toDense_ok (l : LowRank R) (hl : l.WF) :
    ∃ D, l.toDense = .ok D ∧ D.rows = l.dim0 ∧ D.cols = l.dim1 ∧
      ∀ i j, D.val i j = l.entry i j :=
  fillDense_ok l hl (Dense.zero l.dim0 l.dim1) rfl rfl

/-! ### transposition -/

theorem LowRank_transpose_entry (l : LowRank R) (i j : Nat) :
    l.transpose.entry j i = l.entry i j := by
  simp only [LowRank.entry, LowRank.transpose, LowRank.ofFactors, Dense.transpose,
    Finset.sum_mul]
  rw [Finset.sum_comm]
  refine Finset.sum_congr rfl (fun a _ => Finset.sum_congr rfl (fun b _ => ?_))
  ring

theorem transpose_ok (A : Mat R) (hA : A.WF) (hE : A.NoEmpty) :
    ∃ T, A.transpose = .ok T ∧ T.WF ∧ T.NoEmpty ∧ T.nRows = A.nCols ∧ T.nCols = A.nRows ∧
      ∀ i < A.nRows, ∀ j < A.nCols, T.entry j i = A.entry i j := by
  induction A with
  | dense d => exact ⟨_, rfl, trivial, trivial, rfl, rfl, fun i _ j _ => rfl⟩
  | lowRank l =>
    simp only [WF] at hA
    refine ⟨_, rfl, ?_, trivial, hA.vcols, hA.urows, fun i _ j _ => ?_⟩
    · exact ofFactors_wf (by simp [Dense.transpose, hA.vrows])
        (by simp [Dense.transpose, hA.ucols, hA.srows])
    · exact LowRank_transpose_entry l i j
  | empty => exact hE.elim
  | hier br bc blk ih =>
    simp only [WF] at hA
    obtain ⟨hbr, hbc, hA⟩ := hA
    simp only [NoEmpty] at hE
    obtain ⟨g, hg⟩ := collect2_exists (m := br) (n := bc) (f := fun i j => (blk i j).transpose)
      (fun i hi j hj => by
        obtain ⟨T, hT, -⟩ := ih i j (hA i hi j hj).1 (hE i hi j hj)
        exact ⟨T, hT⟩)
    have key : ∀ i < br, ∀ j < bc, (g i j).WF ∧ (g i j).NoEmpty ∧
        (g i j).nRows = (blk 0 j).nCols ∧
        (g i j).nCols = (blk i 0).nRows ∧ ∀ r < (blk i 0).nRows, ∀ s < (blk 0 j).nCols,
          (g i j).entry s r = (blk i j).entry r s := by
      intro i hi j hj
      obtain ⟨T, hT, h0, hN, h1, h2, h3⟩ := ih i j (hA i hi j hj).1 (hE i hi j hj)
      have := collect2_ok hg i hi j hj
      rw [hT] at this
      cases Except.ok.inj this
      refine ⟨h0, hN, by rw [h1, (hA i hi j hj).2.2], by rw [h2, (hA i hi j hj).2.1], ?_⟩
      intro r hr s hs
      exact h3 r (by rw [(hA i hi j hj).2.1]; exact hr) s (by rw [(hA i hi j hj).2.2]; exact hs)
    refine ⟨.hier bc br (fun j i => g i j), by simp only [transpose, hg]; rfl, ?_, ?_, ?_, ?_, ?_⟩
    · simp only [WF]
      refine ⟨hbc, hbr, fun j hj i hi => ⟨(key i hi j hj).1, ?_, ?_⟩⟩
      · rw [(key i hi j hj).2.2.1, (key 0 hbr j hj).2.2.1]
      · rw [(key i hi j hj).2.2.2.1, (key i hi 0 hbc).2.2.2.1]
    · simp only [NoEmpty]
      exact fun j hj i hi => (key i hi j hj).2.1
    · rw [nRows_hier, nCols_hier]; exact psum_congr (fun j hj => (key 0 hbr j hj).2.2.1)
    · rw [nRows_hier, nCols_hier]; exact psum_congr (fun i hi => (key i hi 0 hbc).2.2.2.1)
    · intro i hi j hj
      rw [nRows_hier] at hi
      rw [nCols_hier] at hj
      obtain ⟨p, hp, r, hr, rfl⟩ := exists_block _ _ _ hi
      obtain ⟨q, hq, s, hs, rfl⟩ := exists_block _ _ _ hj
      rw [entry_block hp hq hr hs, ← (key p hp q hq).2.2.2.2 r hr s hs]
      have e1 : psum (fun a => (blk a 0).nRows) p = psum (fun a => (g a 0).nCols) p :=
        psum_congr (fun c hc => (key c (by omega) 0 hbc).2.2.2.1.symm)
      have e2 : psum (fun a => (blk 0 a).nCols) q = psum (fun a => (g 0 a).nRows) q :=
        psum_congr (fun c hc => (key 0 hbr c (by omega)).2.2.1.symm)
      rw [e1, e2]
      exact entry_block (blk := fun j i => g i j) hq hp
        (by rw [(key 0 hbr q hq).2.2.1]; exact hs) (by rw [(key p hp 0 hbc).2.2.2.1]; exact hr)

/-! ### scaling and zeroing -/

/-- Blockwise application of an operation that keeps dimensions and
well-formedness and acts on entries by `F`. -/
theorem collect2_entrywise {br bc : Nat} {blk : Nat → Nat → Mat R}
    {f : Nat → Nat → Except Err (Mat R)} {F : R → R} (hA : (Mat.hier br bc blk).WF)
    (key : ∀ i < br, ∀ j < bc, ∃ T, f i j = .ok T ∧ T.WF ∧ T.nRows = (blk i j).nRows ∧
      T.nCols = (blk i j).nCols ∧ ∀ r < (blk i j).nRows, ∀ s < (blk i j).nCols,
        T.entry r s = F ((blk i j).entry r s)) :
    ∃ g, collect2 br bc f = .ok g ∧ (Mat.hier br bc g).WF ∧
      (Mat.hier br bc g).nRows = (Mat.hier br bc blk).nRows ∧
      (Mat.hier br bc g).nCols = (Mat.hier br bc blk).nCols ∧
      ∀ i < (Mat.hier br bc blk).nRows, ∀ j < (Mat.hier br bc blk).nCols,
        (Mat.hier br bc g).entry i j = F ((Mat.hier br bc blk).entry i j) := by
  simp only [WF] at hA
  obtain ⟨hbr, hbc, hA⟩ := hA
  obtain ⟨g, hg⟩ := collect2_exists (m := br) (n := bc) (f := f)
    (fun i hi j hj => ⟨_, (key i hi j hj).choose_spec.1⟩)
  have key' : ∀ i < br, ∀ j < bc, (g i j).WF ∧ (g i j).nRows = (blk i j).nRows ∧
      (g i j).nCols = (blk i j).nCols ∧ ∀ r < (blk i j).nRows, ∀ s < (blk i j).nCols,
        (g i j).entry r s = F ((blk i j).entry r s) := by
    intro i hi j hj
    obtain ⟨T, hT, h⟩ := key i hi j hj
    have := collect2_ok hg i hi j hj
    rw [hT] at this
    cases Except.ok.inj this
    exact h
  refine ⟨g, hg, ?_, entry_hier_congr hbr hbc (fun i hi j hj => (hA i hi j hj).2)
    (fun i hi j hj => ⟨(key' i hi j hj).2.1, (key' i hi j hj).2.2.1⟩)
    (fun i hi j hj => (key' i hi j hj).2.2.2)⟩
  simp only [WF]
  refine ⟨hbr, hbc, fun i hi j hj => ⟨(key' i hi j hj).1, ?_, ?_⟩⟩
  · rw [(key' i hi j hj).2.1, (key' i hi 0 hbc).2.1, (hA i hi j hj).2.1]
  · rw [(key' i hi j hj).2.2.1, (key' 0 hbr j hj).2.2.1, (hA i hi j hj).2.2]

/-- Blockwise application of an operation that keeps dimensions and
well-formedness: where the entries of the result are. -/
theorem collect2_blocks {br bc : Nat} {blk : Nat → Nat → Mat R}
    {f : Nat → Nat → Except Err (Mat R)} (hA : (Mat.hier br bc blk).WF)
    (E : Nat → Nat → Nat → Nat → R)
    (key : ∀ i < br, ∀ j < bc, ∃ T, f i j = .ok T ∧ T.WF ∧ T.nRows = (blk i j).nRows ∧
      T.nCols = (blk i j).nCols ∧ ∀ r < (blk i j).nRows, ∀ s < (blk i j).nCols,
        T.entry r s = E i j r s) :
    ∃ g, collect2 br bc f = .ok g ∧ (Mat.hier br bc g).WF ∧
      (Mat.hier br bc g).nRows = (Mat.hier br bc blk).nRows ∧
      (Mat.hier br bc g).nCols = (Mat.hier br bc blk).nCols ∧
      ∀ p < br, ∀ q < bc, ∀ r < (blk p 0).nRows, ∀ s < (blk 0 q).nCols,
        (Mat.hier br bc g).entry (psum (fun a => (blk a 0).nRows) p + r)
          (psum (fun a => (blk 0 a).nCols) q + s) = E p q r s := by
  simp only [WF] at hA
  obtain ⟨hbr, hbc, hA⟩ := hA
  obtain ⟨g, hg⟩ := collect2_exists (m := br) (n := bc) (f := f)
    (fun i hi j hj => ⟨_, (key i hi j hj).choose_spec.1⟩)
  have key' : ∀ i < br, ∀ j < bc, (g i j).WF ∧ (g i j).nRows = (blk i j).nRows ∧
      (g i j).nCols = (blk i j).nCols ∧ ∀ r < (blk i j).nRows, ∀ s < (blk i j).nCols,
        (g i j).entry r s = E i j r s := by
    intro i hi j hj
    obtain ⟨T, hT, h⟩ := key i hi j hj
    have := collect2_ok hg i hi j hj
    rw [hT] at this
    cases Except.ok.inj this
    exact h
  have h1 : ∀ a < br, (blk a 0).nRows = (g a 0).nRows := fun a ha => (key' a ha 0 hbc).2.1.symm
  have h2 : ∀ b < bc, (blk 0 b).nCols = (g 0 b).nCols := fun b hb => (key' 0 hbr b hb).2.2.1.symm
  refine ⟨g, hg, ?_, ?_, ?_, ?_⟩
  · simp only [WF]
    refine ⟨hbr, hbc, fun i hi j hj => ⟨(key' i hi j hj).1, ?_, ?_⟩⟩
    · rw [(key' i hi j hj).2.1, (key' i hi 0 hbc).2.1, (hA i hi j hj).2.1]
    · rw [(key' i hi j hj).2.2.1, (key' 0 hbr j hj).2.2.1, (hA i hi j hj).2.2]
  · rw [nRows_hier, nRows_hier]; exact psum_congr (fun a ha => (h1 a ha).symm)
  · rw [nCols_hier, nCols_hier]; exact psum_congr (fun a ha => (h2 a ha).symm)
  · intro p hp q hq r hr s hs
    rw [psum_congr (fun a ha => h1 a (by omega)), psum_congr (fun a ha => h2 a (by omega))]
    rw [entry_block hp hq (by rw [← h1 p hp]; exact hr) (by rw [← h2 q hq]; exact hs)]
    exact (key' p hp q hq).2.2.2 r (by rw [(hA p hp q hq).2.1]; exact hr) s
      (by rw [(hA p hp q hq).2.2]; exact hs)

theorem LowRank_scale_entry (l : LowRank R) (b : R) (i j : Nat) :
    (l.scale b).entry i j = l.entry i j * b := by
  simp only [LowRank.entry, LowRank.scale, Dense.scale, Finset.sum_mul]
  refine Finset.sum_congr rfl (fun b _ => Finset.sum_congr rfl (fun a _ => ?_))
  ring

theorem scale_ok (A : Mat R) (hA : A.WF) (hE : A.NoEmpty) (b : R) :
    ∃ A', A.scale b = .ok A' ∧ A'.WF ∧ A'.nRows = A.nRows ∧ A'.nCols = A.nCols ∧
      ∀ i < A.nRows, ∀ j < A.nCols, A'.entry i j = A.entry i j * b := by
  induction A with
  | dense d => exact ⟨_, rfl, trivial, rfl, rfl, fun i _ j _ => rfl⟩
  | lowRank l =>
    refine ⟨_, rfl, ?_, rfl, rfl, fun i _ j _ => LowRank_scale_entry l b i j⟩
    simp only [WF] at hA
    exact { urows := hA.urows, ucols := hA.ucols, srows := hA.srows,
            vrows := hA.vrows, vcols := hA.vcols }
  | empty => exact hE.elim
  | hier br bc blk ih =>
    simp only [NoEmpty] at hE
    have hA' := hA
    simp only [WF] at hA'
    obtain ⟨g, hg, h⟩ := collect2_entrywise (F := fun x => x * b)
      (f := fun i j => (blk i j).scale b) hA
      (fun i hi j hj => ih i j (hA'.2.2 i hi j hj).1 (hE i hi j hj))
    exact ⟨_, by simp only [scale, hg]; rfl, h⟩

theorem zeroAll_ok (A : Mat R) (hA : A.WF) (hE : A.NoEmpty) :
    ∃ A', A.zeroAll = .ok A' ∧ A'.WF ∧ A'.nRows = A.nRows ∧ A'.nCols = A.nCols ∧
      ∀ i < A.nRows, ∀ j < A.nCols, A'.entry i j = 0 := by
  induction A with
  | dense d => exact ⟨_, rfl, trivial, rfl, rfl, fun i _ j _ => rfl⟩
  | lowRank l =>
    refine ⟨_, rfl, ?_, rfl, rfl, fun i _ j _ => ?_⟩
    · simp only [WF] at hA
      exact { urows := hA.urows, ucols := hA.ucols, srows := hA.srows,
              vrows := hA.vrows, vcols := hA.vcols }
    · simp [entry, LowRank.entry, Dense.fill]
  | empty => exact hE.elim
  | hier br bc blk ih =>
    simp only [NoEmpty] at hE
    have hA' := hA
    simp only [WF] at hA'
    obtain ⟨g, hg, h⟩ := collect2_entrywise (F := fun _ => 0)
      (f := fun i j => (blk i j).zeroAll) hA
      (fun i hi j hj => ih i j (hA'.2.2 i hi j hj).1 (hE i hi j hj))
    exact ⟨_, by simp only [zeroAll, hg]; rfl, h⟩

omit [CommRing R] in
theorem diag_psum {br bc : Nat} {blk : Nat → Nat → Mat R} (hA : (Mat.hier br bc blk).WF)
    (hD : (Mat.hier br bc blk).DiagOk) (n : Nat) (h1 : n ≤ br) (h2 : n ≤ bc)
    (h3 : n < max br bc) :
    psum (fun a => (blk a 0).nRows) n = psum (fun a => (blk 0 a).nCols) n := by
  simp only [WF] at hA
  simp only [DiagOk] at hD
  refine psum_congr (fun k hk => ?_)
  rw [← (hA.2.2 k (by omega) k (by omega)).2.1, ← (hA.2.2 k (by omega) k (by omega)).2.2]
  exact (hD k (by omega) (by omega)).2 (by omega)

omit [CommRing R] in
/-- Position of an entry relative to the diagonal, from its block. -/
theorem diag_cmp {br bc : Nat} {blk : Nat → Nat → Mat R} (hA : (Mat.hier br bc blk).WF)
    (hD : (Mat.hier br bc blk).DiagOk) {p q r s : Nat} (hp : p < br) (hq : q < bc)
    (hr : r < (blk p 0).nRows) (hs : s < (blk 0 q).nCols) :
    (p = q → psum (fun a => (blk a 0).nRows) p = psum (fun a => (blk 0 a).nCols) q) ∧
    (q < p → psum (fun a => (blk 0 a).nCols) q + s < psum (fun a => (blk a 0).nRows) p + r) ∧
    (p < q → psum (fun a => (blk a 0).nRows) p + r < psum (fun a => (blk 0 a).nCols) q + s) := by
  refine ⟨?_, ?_, ?_⟩
  · rintro rfl
    exact diag_psum hA hD p (by omega) (by omega) (by omega)
  · intro hqp
    have h1 := diag_psum hA hD (q + 1) (by omega) (by omega) (by omega)
    have h2 := psum_mono (fun a => (blk a 0).nRows) (show q + 1 ≤ p by omega)
    rw [psum_succ (fun a => (blk 0 a).nCols)] at h1
    omega
  · intro hpq
    have h1 := diag_psum hA hD (p + 1) (by omega) (by omega) (by omega)
    have h2 := psum_mono (fun a => (blk 0 a).nCols) (show p + 1 ≤ q by omega)
    rw [psum_succ (fun a => (blk a 0).nRows)] at h1
    omega

theorem zeroLower_ok (A : Mat R) (hA : A.WF) (hE : A.NoEmpty) (hD : A.DiagOk) :
    ∃ A', A.zeroLower = .ok A' ∧ A'.WF ∧ A'.nRows = A.nRows ∧ A'.nCols = A.nCols ∧
      ∀ i < A.nRows, ∀ j < A.nCols, A'.entry i j = if j < i then 0 else A.entry i j := by
  induction A with
  | dense d => exact ⟨_, rfl, trivial, rfl, rfl, fun i _ j _ => rfl⟩
  | lowRank l => exact hD.elim
  | empty => exact hE.elim
  | hier br bc blk ih =>
    have hE' := hE
    simp only [NoEmpty] at hE'
    have hA' := hA
    simp only [WF] at hA'
    have hD' := hD
    simp only [DiagOk] at hD'
    obtain ⟨g, hg, w, e1, e2, h⟩ := collect2_blocks
      (f := fun i j => if j = i then (blk i j).zeroLower
        else if j < i then (blk i j).zeroAll else .ok (blk i j)) hA
      (fun p q r s => if q < p then 0 else if q = p ∧ s < r then 0 else (blk p q).entry r s)
      (by
        intro i hi j hj
        by_cases hij : j = i
        · subst hij
          simp only [if_true, lt_irrefl, if_false, true_and]
          exact ih j j (hA'.2.2 j hi j hj).1 (hE' j hi j hj) (hD' j hi hj).1
        · by_cases hlt : j < i
          · simp only [hij, hlt, if_true, if_false]
            exact zeroAll_ok _ (hA'.2.2 i hi j hj).1 (hE' i hi j hj)
          · simp only [hij, hlt, if_false, false_and]
            exact ⟨_, rfl, (hA'.2.2 i hi j hj).1, rfl, rfl, fun _ _ _ _ => rfl⟩)
    refine ⟨.hier br bc g, by simp only [zeroLower, hg]; rfl, w, e1, e2, ?_⟩
    intro i hi j hj
    rw [nRows_hier] at hi
    rw [nCols_hier] at hj
    obtain ⟨p, hp, r, hr, rfl⟩ := exists_block _ _ _ hi
    obtain ⟨q, hq, s, hs, rfl⟩ := exists_block _ _ _ hj
    rw [h p hp q hq r hr s hs, entry_block hp hq hr hs]
    obtain ⟨c1, c2, c3⟩ := diag_cmp hA hD hp hq hr hs
    rcases Nat.lt_trichotomy q p with hlt | heq | hgt
    · rw [if_pos hlt, if_pos (c2 hlt)]
    · subst heq
      have := c1 rfl
      simp only [lt_irrefl, if_false, true_and]
      by_cases hsr : s < r
      · rw [if_pos hsr, if_pos (by omega)]
      · rw [if_neg hsr, if_neg (by omega)]
    · have := c3 hgt
      rw [if_neg (by omega), if_neg (by omega), if_neg (by omega)]

theorem zeroUpper_ok (A : Mat R) (hA : A.WF) (hE : A.NoEmpty) (hD : A.DiagOk) :
    ∃ A', A.zeroUpper = .ok A' ∧ A'.WF ∧ A'.nRows = A.nRows ∧ A'.nCols = A.nCols ∧
      ∀ i < A.nRows, ∀ j < A.nCols, A'.entry i j = if i < j then 0 else A.entry i j := by
  induction A with
  | dense d => exact ⟨_, rfl, trivial, rfl, rfl, fun i _ j _ => rfl⟩
  | lowRank l => exact hD.elim
  | empty => exact hE.elim
  | hier br bc blk ih =>
    have hE' := hE
    simp only [NoEmpty] at hE'
    have hA' := hA
    simp only [WF] at hA'
    have hD' := hD
    simp only [DiagOk] at hD'
    obtain ⟨g, hg, w, e1, e2, h⟩ := collect2_blocks
      (f := fun i j => if j = i then (blk i j).zeroUpper
        else if i < j then (blk i j).zeroAll else .ok (blk i j)) hA
      (fun p q r s => if p < q then 0 else if q = p ∧ r < s then 0 else (blk p q).entry r s)
      (by
        intro i hi j hj
        by_cases hij : j = i
        · subst hij
          simp only [if_true, lt_irrefl, if_false, true_and]
          exact ih j j (hA'.2.2 j hi j hj).1 (hE' j hi j hj) (hD' j hi hj).1
        · by_cases hlt : i < j
          · simp only [hij, hlt, if_true, if_false]
            exact zeroAll_ok _ (hA'.2.2 i hi j hj).1 (hE' i hi j hj)
          · simp only [hij, hlt, if_false, false_and]
            exact ⟨_, rfl, (hA'.2.2 i hi j hj).1, rfl, rfl, fun _ _ _ _ => rfl⟩)
    refine ⟨.hier br bc g, by simp only [zeroUpper, hg]; rfl, w, e1, e2, ?_⟩
    intro i hi j hj
    rw [nRows_hier] at hi
    rw [nCols_hier] at hj
    obtain ⟨p, hp, r, hr, rfl⟩ := exists_block _ _ _ hi
    obtain ⟨q, hq, s, hs, rfl⟩ := exists_block _ _ _ hj
    rw [h p hp q hq r hr s hs, entry_block hp hq hr hs]
    obtain ⟨c1, c2, c3⟩ := diag_cmp hA hD hp hq hr hs
    rcases Nat.lt_trichotomy q p with hlt | heq | hgt
    · have := c2 hlt
      rw [if_neg (by omega), if_neg (by omega), if_neg (by omega)]
    · subst heq
      have := c1 rfl
      simp only [lt_irrefl, if_false, true_and]
      by_cases hsr : r < s
      · rw [if_pos hsr, if_pos (by omega)]
      · rw [if_neg hsr, if_neg (by omega)]
    · rw [if_pos hgt, if_pos (c3 hgt)]

/-! ### norm and difference norm -/

theorem sum_entry_blocks {br bc : Nat} {blk : Nat → Nat → Mat R} (F : Nat → Nat → R)
    (G : Nat → Nat → Nat → Nat → R)
    (h : ∀ p < br, ∀ q < bc, ∀ r < (blk p 0).nRows, ∀ s < (blk 0 q).nCols,
      F (psum (fun a => (blk a 0).nRows) p + r) (psum (fun a => (blk 0 a).nCols) q + s) = G p q r s) :
    ∑ i ∈ range (Mat.hier br bc blk).nRows, ∑ j ∈ range (Mat.hier br bc blk).nCols, F i j =
      ∑ p ∈ range br, ∑ q ∈ range bc, ∑ r ∈ range (blk p 0).nRows, ∑ s ∈ range (blk 0 q).nCols,
        G p q r s := by
  rw [nRows_hier, nCols_hier, sum_blocks2]
  refine Finset.sum_congr rfl (fun p hp => Finset.sum_congr rfl (fun q hq =>
    Finset.sum_congr rfl (fun r hr => Finset.sum_congr rfl (fun s hs => ?_))))
  simp only [Finset.mem_range] at hp hq hr hs
  exact h p hp q hq r hr s hs

theorem sumSq_hier {br bc : Nat} {blk : Nat → Nat → Mat R} (hA : (Mat.hier br bc blk).WF) :
    sumSq (.hier br bc blk) = ∑ p ∈ range br, ∑ q ∈ range bc, sumSq (blk p q) := by
  simp only [WF] at hA
  unfold sumSq
  rw [sum_entry_blocks _ (fun p q r s => (blk p q).entry r s * (blk p q).entry r s)
    (fun p hp q hq r hr s hs => by rw [entry_block hp hq hr hs])]
  refine Finset.sum_congr rfl (fun p hp => Finset.sum_congr rfl (fun q hq => ?_))
  simp only [Finset.mem_range] at hp hq
  rw [(hA.2.2 p hp q hq).2.1, (hA.2.2 p hp q hq).2.2]

theorem sumSqDiff_hier {br bc : Nat} {blk blk' : Nat → Nat → Mat R}
    (hA : (Mat.hier br bc blk).WF)
    (hd : ∀ i < br, ∀ j < bc, (blk i j).nRows = (blk' i j).nRows ∧
      (blk i j).nCols = (blk' i j).nCols) :
    sumSqDiff (.hier br bc blk) (.hier br bc blk') =
      ∑ p ∈ range br, ∑ q ∈ range bc, sumSqDiff (blk p q) (blk' p q) := by
  simp only [WF] at hA
  unfold sumSqDiff
  rw [sum_entry_blocks _ (fun p q r s => ((blk p q).entry r s - (blk' p q).entry r s) *
      ((blk p q).entry r s - (blk' p q).entry r s))
    (fun p hp q hq r hr s hs => by
      have e1 : psum (fun a => (blk a 0).nRows) p = psum (fun a => (blk' a 0).nRows) p :=
        psum_congr (fun a ha => (hd a (by omega) 0 hA.2.1).1)
      have e2 : psum (fun a => (blk 0 a).nCols) q = psum (fun a => (blk' 0 a).nCols) q :=
        psum_congr (fun a ha => (hd 0 hA.1 a (by omega)).2)
      rw [entry_block hp hq hr hs, e1, e2,
        entry_block hp hq (by rw [← (hd p hp 0 hA.2.1).1]; exact hr)
          (by rw [← (hd 0 hA.1 q hq).2]; exact hs)])]
  refine Finset.sum_congr rfl (fun p hp => Finset.sum_congr rfl (fun q hq => ?_))
  simp only [Finset.mem_range] at hp hq
  rw [(hA.2.2 p hp q hq).2.1, (hA.2.2 p hp q hq).2.2]

theorem normDense_eq {A : Mat R} {D : Dense R} (h0 : D.rows = A.nRows) (h1 : D.cols = A.nCols)
    (h : ∀ i < A.nRows, ∀ j < A.nCols, D.val i j = A.entry i j) : normDense D = sumSq A := by
  unfold normDense sumSq
  rw [h0, h1]
  refine Finset.sum_congr rfl (fun i hi => Finset.sum_congr rfl (fun j hj => ?_))
  simp only [Finset.mem_range] at hi hj
  rw [h i hi j hj]

theorem norm_ok [Inhabited R] (A : Mat R) (hA : A.WF) (hE : A.NoEmpty) :
    A.norm = .ok (sumSq A) := by
  induction A with
  | dense d => rfl
  | lowRank l =>
    simp only [WF] at hA
    obtain ⟨D, hD, e0, e1, e2⟩ := LowRank_toDense_ok l hA
    simp only [norm, hD, except_bind_ok]
    rw [normDense_eq (A := .lowRank l) e0 e1 (fun i _ j _ => e2 i j)]
  | empty => exact hE.elim
  | hier br bc blk ih =>
    simp only [NoEmpty] at hE
    have hA' := hA
    simp only [WF] at hA'
    obtain ⟨g, hg⟩ := collect2_exists (m := br) (n := bc) (f := fun i j => (blk i j).norm)
      (fun i hi j hj => ⟨_, ih i j (hA'.2.2 i hi j hj).1 (hE i hi j hj)⟩)
    simp only [norm, hg, except_bind_ok]
    rw [sumSq_hier hA]
    congr 1
    refine Finset.sum_congr rfl (fun i hi => Finset.sum_congr rfl (fun j hj => ?_))
    simp only [Finset.mem_range] at hi hj
    have := collect2_ok hg i hi j hj
    rw [ih i j (hA'.2.2 i hi j hj).1 (hE i hi j hj)] at this
    exact (Except.ok.inj this).symm

end
end Mat
end Verif
