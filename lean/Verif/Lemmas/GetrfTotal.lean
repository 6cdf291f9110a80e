import Verif.Lemmas.TrsmTotal
import Verif.Lemmas.Lu
import Verif.Lemmas.Elim

/-
LU factorization of column diagonally dominant matrices returns, without row
interchanges.
-/

namespace Verif
open Finset

variable {R : Type}

namespace Mat

theorem Solvable.triFits {b : Nat} {uplo : Uplo} {side : Side} {A B : Mat R} (h : Solvable b uplo side A B) :
    TriFits side A B := by
  induction A generalizing B with
  | dense a => cases B <;> trivial
  | lowRank a => cases B <;> trivial
  | empty => cases B <;> trivial
  | hier p q A ih =>
    cases B <;> try trivial
    obtain ⟨-, -, h3, h⟩ := h
    exact ⟨h3, fun i hi j hj => ih _ _ (h i hi j hj).2⟩

theorem LuSolvable.luFits {b : Nat} {A : Mat R} (h : A.LuSolvable b) : A.LuFits := by
  induction A with
  | dense a => exact h
  | lowRank a => exact h.elim
  | empty => exact h.elim
  | hier p q A ih =>
    obtain ⟨h1, h2, h3⟩ := h
    exact ⟨h1, fun i hi => ih i i (h2 i hi), fun i hi k hk hik =>
      ⟨(h3 i hi k hk hik).1.triFits, (h3 i hi k hk hik).2.triFits⟩⟩

theorem DiagShape.solvable {b : Nat} {uplo : Uplo} {side : Side} {A A' B : Mat R} (h : DiagShape A A')
    (hS : Solvable b uplo side A B) : Solvable b uplo side A' B := by
  induction A generalizing A' B with
  | dense a => cases A' <;> first | exact h.elim | (cases B <;> first | exact hS.elim | exact hS)
  | lowRank a => exact hS.elim
  | empty => exact hS.elim
  | hier p q A ih =>
    cases A' <;> try exact h.elim
    obtain ⟨rfl, rfl, h⟩ := h
    cases B <;> first | exact hS.elim | exact hS | skip
    obtain ⟨h1, h2, h3, hS⟩ := hS
    refine ⟨h1, h2, h3, fun i hi j hj => ⟨(hS i hi j hj).1, ih _ _ (h _ ?_) (hS i hi j hj).2⟩⟩
    rw [h3]
    cases side <;> assumption

section
variable [CommRing R]

theorem LuSolvable.shape {b : Nat} {A B : Mat R} (h : A.LuSolvable b) (hs : A.SameShape B) (hw : B.WF) :
    B.LuSolvable b := by
  induction A generalizing B with
  | dense d =>
    cases B <;> try exact hs.elim
    have h : d.rows = d.cols := h
    exact hs.1.symm.trans (h.trans hs.2)
  | lowRank l => exact h.elim
  | empty => exact h.elim
  | hier p q A ih =>
    cases B <;> try exact hs.elim
    obtain ⟨rfl, rfl, hs⟩ := hs
    obtain ⟨rfl, h2, h3⟩ := h
    simp only [WF] at hw
    refine ⟨rfl, fun i hi => ih i i (h2 i hi) (hs i hi i hi) (hw.2.2 i hi i hi).1, fun i hi k hk hik => ?_⟩
    have hd := (hs i hi i hi).diagShape (h2 i hi).luFits.diagSquare
    exact ⟨hd.solvable ((h3 i hi k hk hik).1.shape (hs k hk i hi) (hw.2.2 k hk i hi).1),
      hd.solvable ((h3 i hi k hk hik).2.shape (hs i hi k hk) (hw.2.2 i hi k hk).1)⟩

omit [CommRing R] in
theorem Even.of_dims {p q : Nat} {A B : Nat → Nat → Mat R} (hA : (Mat.hier p q A).Even) (hq : 0 < q) (hp : 0 < p)
    (h : ∀ i < p, ∀ j < q, (B i j).Even ∧ (B i j).nRows = (A i j).nRows ∧ (B i j).nCols = (A i j).nCols) :
    (Mat.hier p q B).Even := by
  simp only [Even] at hA ⊢
  intro i hi j hj
  refine ⟨(h i hi j hj).1, ?_, ?_⟩
  · rw [(h i hi j hj).2.1, (hA i hi j hj).2.1, sum_congr rfl (fun k hk => ?_)]
    exact ((h k (mem_range.1 hk) 0 hq).2.1).symm
  · rw [(h i hi j hj).2.2, (hA i hi j hj).2.2, sum_congr rfl (fun k hk => ?_)]
    exact ((h 0 hp k (mem_range.1 hk)).2.2).symm

omit [CommRing R] in
theorem AllDense.block {p q : Nat} {A : Nat → Nat → Mat R} (hA : (Mat.hier p q A).WF)
    (h : (Mat.hier p q A).AllDense) {i j : Nat} (hi : i < p) (hj : j < q) : (A i j).AllDense := by
  have hA' := hA
  simp only [WF] at hA'
  intro x hx y hy
  rw [(hA'.2.2 i hi j hj).2.1] at hx
  rw [(hA'.2.2 i hi j hj).2.2] at hy
  have := h (psum (fun a => (A a 0).nRows) i + x) (by
    rw [nRows_hier]
    have := psum_le (fun a => (A a 0).nRows) hi
    omega) (psum (fun b => (A 0 b).nCols) j + y) (by
    rw [nCols_hier]
    have := psum_le (fun b => (A 0 b).nCols) hj
    omega)
  rwa [denseAt_block hi hj hx hy] at this

omit [CommRing R] in
theorem SameShape.allDense {A B : Mat R} (h : A.SameShape B) (hA : A.WF) (hd : A.AllDense) : B.AllDense := by
  have dd := h.dims hA
  intro i hi j hj
  rw [dd.1] at hi
  rw [dd.2] at hj
  exact (h.denseAt hA hi hj).2 (hd i hi j hj)

end

theorem depth_hier_le {p q k : Nat} {A : Nat → Nat → Mat R} (h : ∀ i < p, ∀ j < q, (A i j).depth ≤ k) :
    (Mat.hier p q A).depth ≤ 1 + k := by
  simp only [depth]
  refine Nat.add_le_add_left (Finset.sup_le (fun i hi => Finset.sup_le (fun j hj => ?_))) 1
  exact h i (mem_range.1 hi) j (mem_range.1 hj)

section
variable [Field R]

/-- A sum over a lower triangle. -/
theorem sum_lowerTri {k l : Nat} (hl : l < k) (a c : Nat → R) (ha : ∀ t < k, l < t → a t = 0) (h1 : a l = 1) :
    ∑ t ∈ range k, a t * c t = ∑ t ∈ range l, a t * c t + c l := by
  rw [← sum_range_add_sum_Ico _ (show l + 1 ≤ k by omega), sum_range_succ, h1, one_mul]
  rw [sum_eq_zero (s := Ico (l + 1) k), add_zero]
  intro t ht
  rw [mem_Ico] at ht
  rw [ha t ht.2 (by omega), zero_mul]

theorem sum_upperTri {k l : Nat} (hl : l < k) (a c : Nat → R) (hc : ∀ t < k, l < t → c t = 0) :
    ∑ t ∈ range k, a t * c t = ∑ t ∈ range l, a t * c t + a l * c l := by
  rw [← sum_range_add_sum_Ico _ (show l + 1 ≤ k by omega), sum_range_succ]
  rw [sum_eq_zero (s := Ico (l + 1) k), add_zero]
  intro t ht
  rw [mem_Ico] at ht
  rw [hc t ht.2 (by omega), mul_zero]

/-- Entries of the factors of an exact factorization. -/
theorem LuPost.sums {ex : Prop} {A L U : Mat R} (P : LuPost ex false A L U) (hA : A.nRows = A.nCols)
    (hex : A.AllDense ∨ ex) :
    (∀ l < A.nRows, ∀ j < A.nRows, A.entry l j =
      ∑ t ∈ range l, L.entry l t * U.entry t j + U.entry l j) ∧
    (∀ l < A.nRows, ∀ i < A.nRows, A.entry i l =
      ∑ t ∈ range l, L.entry i t * U.entry t l + L.entry i l * U.entry l l) := by
  have E : ∀ i < A.nRows, ∀ j < A.nRows, A.entry i j = ∑ t ∈ range A.nRows, L.entry i t * U.entry t j := by
    intro i hi j hj
    rw [← P.ent rfl i hi j (by omega) (hex.imp (fun h => h i hi j (by omega)) id), prodEntry_ff, P.lcols, hA]
  refine ⟨fun l hl j hj => ?_, fun l hl i hi => ?_⟩
  · rw [E l hl j hj]
    refine sum_lowerTri hl (fun t => L.entry l t) (fun t => U.entry t j) (fun t ht hlt => ?_) ?_
    · show L.entry l t = 0
      rw [P.low l hl t (by omega)]
      unfold triEntry
      rw [if_neg (by omega)]
      exact if_neg (by omega)
    · show L.entry l l = 1
      rw [P.low l hl l (by omega)]
      simp [triEntry]
  · rw [E i hi l hl]
    refine sum_upperTri hl (fun t => L.entry i t) (fun t => U.entry t l) (fun t ht hlt => ?_)
    show U.entry t l = 0
    rw [P.up t ht l (by omega)]
    unfold triEntry
    rw [if_neg (by omega)]
    exact if_neg (by omega)

theorem LuPost.pivots {ex : Prop} {A L U : Mat R} (P : LuPost ex false A L U) (hA : A.nRows = A.nCols)
    (hex : A.AllDense ∨ ex) (hz : ∀ l < A.nRows, elim A.entry l l l ≠ 0) :
    U.DiagNonzero .upper := by
  intro _ l hl
  rw [P.urows] at hl
  obtain ⟨s1, s2⟩ := P.sums hA hex
  have := elim_upper (M := A.entry) (L := L.entry) (U := U.entry) (k := A.nRows) (P := (· < A.nRows))
    (Q := (· < A.nRows)) (fun _ h => h) (fun _ h => h) hz (fun l hl j hj _ => s1 l hl j hj)
    (fun l hl i hi _ => s2 l hl i hi) l hl l hl le_rfl
  rw [this]
  exact hz l hl

end

section
variable [Field R] [LinearOrder R] [IsStrictOrderedRing R] [DecidableEq R]

/-- Invariant of the outer loop of the factorization beyond `LuInv`. -/
structure LuTot (Q : LowRank R → Prop) (b n d : Nat) (A0 : Nat → Nat → Mat R) (m : Nat) (st : LuState R) :
    Prop where
  flag : st.2.2 = false
  all : ∀ i < n, ∀ j < n, m ≤ i → m ≤ j → (st.2.1 i j).All Q
  ent : ∀ i < n, ∀ j < n, m ≤ i → m ≤ j → ∀ x < (A0 i 0).nRows, ∀ y < (A0 j 0).nRows,
    (st.2.1 i j).entry x y = elim (Mat.hier n n A0).entry (psum (fun k => (A0 k 0).nRows) m)
      (psum (fun k => (A0 k 0).nRows) i + x) (psum (fun k => (A0 k 0).nRows) j + y)
  low : ∀ t < n, t < m → (st.1 t t).TriRegular b .lower ∧ (st.1 t t).depth ≤ d
  up : ∀ t < n, t < m → (st.2.1 t t).TriRegular b .upper ∧ (st.2.1 t t).depth ≤ d

omit [LinearOrder R] [IsStrictOrderedRing R] [DecidableEq R] in
theorem getrf_schur {ex : Prop} {D L U F G l u : Mat R} (P : LuPost ex false D L U) (hD : D.nRows = D.nCols)
    (hex : D.AllDense ∨ ex) {N : Nat → Nat → R} (hN : ∀ i < D.nRows, ∀ j < D.nRows, N i j = D.entry i j)
    (hz : ∀ l < D.nRows, elim N l l l ≠ 0) {i0 j0 x y : Nat} (hi0 : D.nRows ≤ i0) (hj0 : D.nRows ≤ j0)
    (F1 : F.nCols = D.nRows) (G0 : G.nRows = D.nRows)
    (hF : ∀ t < D.nRows, N i0 t = F.entry x t) (hG : ∀ t < D.nRows, N t j0 = G.entry t y)
    (hl : ∀ t < F.nCols, sideProd .right U.nRows (triEntry .upper false U) l x t = F.entry x t)
    (hu : ∀ t < G.nRows, sideProd .left L.nRows (triEntry .lower true L) u t y = G.entry t y) :
    elim N D.nRows i0 j0 = N i0 j0 - ∑ t ∈ range D.nRows, l.entry x t * u.entry t y := by
  obtain ⟨s1, s2⟩ := P.sums hD hex
  have := elim_schur (M := N) (L := fun i t => if i < D.nRows then L.entry i t else l.entry x t)
    (U := fun t j => if j < D.nRows then U.entry t j else u.entry t y) (k := D.nRows)
    (P := fun i => i < D.nRows ∨ i = i0) (Q := fun j => j < D.nRows ∨ j = j0) (fun _ h => Or.inl h)
    (fun _ h => Or.inl h) hz ?_ ?_ D.nRows le_rfl i0 j0 (Or.inr rfl) (Or.inr rfl) hi0 hj0
  · rw [this]
    congr 1
    refine sum_congr rfl (fun t _ => ?_)
    rw [if_neg (by omega), if_neg (by omega)]
  · rintro t ht j (hj | rfl) htj
    · simp only [ht, hj, if_true]
      rw [hN t ht j hj, s1 t ht j hj]
    · simp only [ht, if_true, if_neg (show ¬j < D.nRows by omega)]
      rw [hG t ht, ← hu t (by omega)]
      simp only [sideProd]
      rw [P.lrows]
      have := sum_lowerTri ht (fun s => triEntry .lower true L t s) (fun s => u.entry s y) (fun s hs hts => by
        unfold triEntry
        rw [if_neg (by omega)]
        exact if_neg (by omega)) (by simp [triEntry])
      rw [this]
      congr 1
      refine sum_congr rfl (fun s hs => ?_)
      rw [mem_range] at hs
      rw [← P.low t ht s (by omega)]
  · rintro t ht i (hi | rfl) hti
    · simp only [ht, hi, if_true]
      rw [hN i hi t ht, s2 t ht i hi]
    · simp only [ht, if_true, if_neg (show ¬i < D.nRows by omega)]
      rw [hF t ht, ← hl t (by omega)]
      simp only [sideProd]
      rw [P.urows]
      have := sum_upperTri ht (fun s => l.entry x s) (fun s => triEntry .upper false U s t) (fun s hs hts => by
        unfold triEntry
        rw [if_neg (by omega)]
        exact if_neg (by omega))
      rw [this, ← P.up t ht t (by omega)]
      congr 1
      refine sum_congr rfl (fun s hs => ?_)
      rw [mem_range] at hs
      rw [← P.up s (by omega) t (by omega)]

theorem getrfStep_total {ex : Prop} {Q : LowRank R → Prop} (hQ : OuterStable Q) {b d : Nat} {g : GemmT R}
    (hG : GemmTot Q b d g) (hg : GemmOk ex False g) {fs : Nat} (hfs : 2 * d + 2 ≤ fs) {n : Nat}
    {A0 : Nat → Nat → Mat R} (hA : (Mat.hier n n A0).Regular b) (dA : (Mat.hier n n A0).depth ≤ d)
    (hS : (Mat.hier n n A0).LuSolvable b) (hex : (Mat.hier n n A0).AllDense ∨ ex)
    (hdom : ColDom 0 (Mat.hier n n A0).nRows (Mat.hier n n A0).entry)
    {f : Mat R → Except Err (Mat R × Mat R × Bool)}
    (hf : ∀ A r, A.WF → A.Square → A.LuFits → f A = .ok r → LuPost ex r.2.2 A r.1 r.2.1)
    (hfT : ∀ A, A.Regular b → A.Square → A.All Q → A.LuSolvable b → A.depth + 1 ≤ (Mat.hier n n A0).depth →
      (A.AllDense ∨ ex) → ColDom 0 A.nRows A.entry → ∃ L U, f A = .ok (L, U, false) ∧
        L.TriRegular b .lower ∧ U.TriRegular b .upper ∧ L.depth ≤ A.depth ∧ U.depth ≤ A.depth)
    {m : Nat} (hm : m < n) {st : LuState R} (hI : LuInv ex n A0 m st)
    (hT : LuTot Q b n ((Mat.hier n n A0).depth - 1) A0 m st) :
    ∃ st', getrfStep g f (trsmWith g .upper .right fs) (trsmWith g .lower .left fs) n n m st = .ok st' ∧
      LuInv ex n A0 (m + 1) st' ∧ LuTot Q b n ((Mat.hier n n A0).depth - 1) A0 (m + 1) st' := by
  have hF := hS.luFits
  have hD := hF.diagSquare
  have hA' := hA.wf
  simp only [WF] at hA'
  obtain ⟨hn0, -, hAd⟩ := hA'
  have hw := hD.widths hA.wf
  have hAb : ∀ i < n, ∀ j < n, (A0 i j).nRows = (A0 i 0).nRows ∧ (A0 i j).nCols = (A0 j 0).nRows :=
    fun i hi j hj => ⟨(hAd i hi j hj).2.1, by rw [(hAd i hi j hj).2.2, hw j hj]⟩
  have dAb : ∀ i < n, ∀ j < n, (A0 i j).depth + 1 ≤ (Mat.hier n n A0).depth :=
    fun i hi j hj => depth_block hi hj
  have hexb : ∀ i < n, ∀ j < n, (A0 i j).AllDense ∨ ex := fun i hi j hj =>
    hex.imp (fun h => h.block hA.wf hi hj) id
  -- the remaining blocks
  have td : ∀ i < n, ∀ j < n, m ≤ i → m ≤ j → (st.2.1 i j).Regular b ∧ (st.2.1 i j).Target Q ∧
      (st.2.1 i j).nRows = (A0 i 0).nRows ∧ (st.2.1 i j).nCols = (A0 j 0).nRows ∧
      (st.2.1 i j).depth = (A0 i j).depth ∧ ((st.2.1 i j).AllDense ∨ ex) := by
    intro i hi j hj h1 h2
    obtain ⟨w, sq, sh, -⟩ := hI.todo i hi j hj h1 h2
    have r := sh.regular w (hA.block hi hj)
    have dd := sh.dims (hAd i hi j hj).1
    exact ⟨r, ⟨w, r.sub.noEmpty, sq, r.even, hT.all i hi j hj h1 h2⟩, dd.1.trans (hAb i hi j hj).1,
      dd.2.trans (hAb i hi j hj).2, sh.depth, (hexb i hi j hj).imp (fun h => sh.allDense (hAd i hi j hj).1 h) id⟩
  set o := psum (fun k => (A0 k 0).nRows) with ho
  have osucc : o (m + 1) = o m + (A0 m 0).nRows := psum_succ _ _
  have omono : ∀ i, m + 1 ≤ i → o m + (A0 m 0).nRows ≤ o i := fun i hi => by
    rw [← osucc]; exact psum_mono _ hi
  have oend : ∀ i < n, o i + (A0 i 0).nRows ≤ (Mat.hier n n A0).nRows := fun i hi => by
    rw [nRows_hier]; exact psum_le _ hi
  -- the pivot block
  obtain ⟨dr, dt, d0, d1, dde, dex⟩ := td m hm m hm le_rfl le_rfl
  obtain ⟨-, -, dsh, -⟩ := hI.todo m hm m hm le_rfl le_rfl
  have dS : (st.2.1 m m).LuSolvable b := (hS.2.1 m hm).shape dsh dr.wf
  have ddom' := (hdom.elim (o m)).sub (o := o m) (h := (A0 m 0).nRows) le_rfl (oend m hm)
  have dN : ∀ x < (A0 m 0).nRows, ∀ y < (A0 m 0).nRows, elim (Mat.hier n n A0).entry (o m) (o m + x) (o m + y) =
      (st.2.1 m m).entry x y := fun x hx y hy => (hT.ent m hm m hm le_rfl le_rfl x hx y hy).symm
  have ddom : ColDom 0 (st.2.1 m m).nRows (st.2.1 m m).entry := by
    rw [d0]
    exact ddom'.congr (fun x _ hx y _ hy => dN x hx y hy)
  obtain ⟨L, U, hLU, Lr, Ur, Ld, Ud⟩ := hfT (st.2.1 m m) dr dt.sqr dt.all dS
    (by rw [dde]; exact dAb m hm m hm) dex ddom
  have P := hf _ _ dr.wf dt.sqr dS.luFits hLU
  have Uz : U.DiagNonzero .upper := P.pivots (d0.trans d1.symm) dex (fun l hl => ddom.pivots hl)
  have Lz : L.DiagNonzero .lower := fun h => by cases h
  have dm := dAb m hm m hm
  -- block column of `L` and block row of `U`
  have hl : ∀ i < n, m < i → ∃ X, trsmWith g .upper .right fs U (st.2.1 i m) = .ok X ∧ X.All Q := by
    intro i hi hmi
    obtain ⟨r, t, e0, e1, de, -⟩ := td i hi m hm (by omega) le_rfl
    obtain ⟨-, -, sh, -⟩ := hI.todo i hi m hm (by omega) le_rfl
    have db := dAb i hi m hm
    have hc : lrCost (st.2.1 i m) ≤ 1 := by cases (st.2.1 i m) <;> simp [lrCost]
    refine trsmWith_total hQ hG hg fs U _ Ur Uz (by omega) t (by omega) ?_ ?_ (by omega)
    · exact P.ud.solvable ((dsh.diagShape (hD.2 m hm)).solvable
        ((hS.2.2 m hm i hi hmi).1.shape sh r.wf))
    · show U.nRows = (st.2.1 i m).nCols
      rw [P.urows, d0, e1]
  have hu : ∀ j < n, m < j → ∃ X, trsmWith g .lower .left fs L (st.2.1 m j) = .ok X ∧ X.All Q := by
    intro j hj hmj
    obtain ⟨r, t, e0, e1, de, -⟩ := td m hm j hj le_rfl (by omega)
    obtain ⟨-, -, sh, -⟩ := hI.todo m hm j hj le_rfl (by omega)
    have db := dAb m hm j hj
    have hc : lrCost (st.2.1 m j) ≤ 1 := by cases (st.2.1 m j) <;> simp [lrCost]
    refine trsmWith_total hQ hG hg fs L _ Lr Lz (by omega) t (by omega) ?_ ?_ (by omega)
    · exact P.ld.solvable ((dsh.diagShape (hD.2 m hm)).solvable
        ((hS.2.2 m hm j hj hmj).2.shape sh r.wf))
    · show L.nRows = (st.2.1 m j).nRows
      rw [P.lrows, d0, e0]
  obtain ⟨lc, hlc⟩ := collect_exists (n := n - (m + 1))
    (f := fun a => trsmWith g .upper .right fs U (st.2.1 (m + 1 + a) m))
    (fun a ha => (hl (m + 1 + a) (by omega) (by omega)).imp (fun _ h => h.1))
  obtain ⟨ur, hur⟩ := collect_exists (n := n - (m + 1))
    (f := fun b => trsmWith g .lower .left fs L (st.2.1 m (m + 1 + b)))
    (fun a ha => (hu (m + 1 + a) (by omega) (by omega)).imp (fun _ h => h.1))
  have hsu : ∀ A B B', A.WF → B.WF → B.Square → A.DiagSquare → TriFits .right A B → A.nRows = B.nCols →
      trsmWith g .upper .right fs A B = .ok B' →
      TrsmPost ex .right (triEntry .upper false A) A.nRows B B' :=
    fun A B B' h1 h2 h3 h4 h5 h6 h7 =>
      trsmWith_ok hg (side := .right) (uplo := .upper) fs A B B' h1 h2 h3 h4 h5 h6 h7
  have hsl : ∀ A B B', A.WF → B.WF → B.Square → A.DiagSquare → TriFits .left A B → A.nRows = B.nRows →
      trsmWith g .lower .left fs A B = .ok B' →
      TrsmPost ex .left (triEntry .lower true A) A.nRows B B' :=
    fun A B B' h1 h2 h3 h4 h5 h6 h7 =>
      trsmWith_ok hg (side := .left) (uplo := .lower) fs A B B' h1 h2 h3 h4 h5 h6 h7
  have lcP : ∀ a < n - (m + 1), TrsmPost ex .right (triEntry .upper false U) U.nRows (st.2.1 (m + 1 + a) m)
      (lc a) := by
    intro a ha
    obtain ⟨r, t, e0, e1, de, -⟩ := td (m + 1 + a) (by omega) m hm (by omega) le_rfl
    obtain ⟨-, -, sh, -⟩ := hI.todo (m + 1 + a) (by omega) m hm (by omega) le_rfl
    refine hsu _ _ _ P.uwf r.wf t.sqr (P.ud.diagSquare dS.luFits.diagSquare) ?_ ?_ (collect_ok hlc a ha)
    · exact P.ud.triFits ((dsh.diagShape (hD.2 m hm)).triFits
        ((hS.2.2 m hm _ (by omega) (by omega)).1.triFits.shape sh))
    · show U.nRows = (st.2.1 (m + 1 + a) m).nCols
      rw [P.urows, d0, e1]
  have urP : ∀ a < n - (m + 1), TrsmPost ex .left (triEntry .lower true L) L.nRows (st.2.1 m (m + 1 + a))
      (ur a) := by
    intro a ha
    obtain ⟨r, t, e0, e1, de, -⟩ := td m hm (m + 1 + a) (by omega) le_rfl (by omega)
    obtain ⟨-, -, sh, -⟩ := hI.todo m hm (m + 1 + a) (by omega) le_rfl (by omega)
    refine hsl _ _ _ P.lwf r.wf t.sqr (P.ld.diagSquare dS.luFits.diagSquare) ?_ ?_ (collect_ok hur a ha)
    · exact P.ld.triFits ((dsh.diagShape (hD.2 m hm)).triFits
        ((hS.2.2 m hm _ (by omega) (by omega)).2.triFits.shape sh))
    · show L.nRows = (st.2.1 m (m + 1 + a)).nRows
      rw [P.lrows, d0, e0]
  -- the update
  have hup : ∀ a < n - (m + 1), ∀ c < n - (m + 1), ∃ X,
      g (lc a) (ur c) (st.2.1 (m + 1 + a) (m + 1 + c)) (-1) 1 false false = .ok X ∧
      (st.2.1 (m + 1 + a) (m + 1 + c)).SameShape X ∧ X.Target Q := by
    intro a ha c hc
    obtain ⟨r1, t1, e10, e11, de1, -⟩ := td (m + 1 + a) (by omega) m hm (by omega) le_rfl
    obtain ⟨r2, t2, e20, e21, de2, -⟩ := td m hm (m + 1 + c) (by omega) le_rfl (by omega)
    obtain ⟨r3, t3, e30, e31, de3, -⟩ := td (m + 1 + a) (by omega) (m + 1 + c) (by omega) (by omega) (by omega)
    have b1 := dAb (m + 1 + a) (by omega) m hm
    have b2 := dAb m hm (m + 1 + c) (by omega)
    have b3 := dAb (m + 1 + a) (by omega) (m + 1 + c) (by omega)
    have s1 := (lcP a ha).shape
    have s2 := (urP c hc).shape
    have dd1 := s1.dims r1.wf
    have dd2 := s2.dims r2.wf
    refine hG.step hg (s1.regular (lcP a ha).wf r1) (s2.regular (urP c hc).wf r2) r3
      (by rw [s1.depth]; omega) (by rw [s2.depth]; omega) (by omega) (SameShape.refl _) t3 ⟨?_, ?_, ?_⟩ _ _
    · show (lc a).nRows = _
      rw [dd1.1, e10, e30]
    · show (lc a).nCols = (ur c).nRows
      rw [dd1.2, dd2.1, e11, e20]
    · show (ur c).nCols = _
      rw [dd2.2, e21, e31]
  obtain ⟨up, hupc⟩ := collect2_exists (fun a ha c hc => (hup a ha c hc).imp (fun _ h => h.1))
  have upE : ∀ a < n - (m + 1), ∀ c < n - (m + 1),
      (st.2.1 (m + 1 + a) (m + 1 + c)).SameShape (up a c) ∧ (up a c).Target Q := by
    intro a ha c hc
    obtain ⟨X, hX, h⟩ := hup a ha c hc
    have e := Except.ok.inj ((collect2_ok hupc a ha c hc).symm.trans hX)
    rw [e]
    exact h
  have hstep : getrfStep g f (trsmWith g .upper .right fs) (trsmWith g .lower .left fs) n n m st = .ok
      (fun a b =>
        if a = m ∧ b = m then L
        else if b = m ∧ m < a then lc (a - (m + 1))
        else if a = m ∧ m < b then .empty (st.2.1 a b).nRows (st.2.1 a b).nCols
        else st.1 a b,
      fun a b =>
        if a = m ∧ b = m then U
        else if b = m ∧ m < a then .empty (st.2.1 a b).nRows (st.2.1 a b).nCols
        else if a = m ∧ m < b then ur (b - (m + 1))
        else if m < a ∧ m < b then up (a - (m + 1)) (b - (m + 1))
        else st.2.1 a b,
      st.2.2 || false) := by
    simp only [getrfStep, blockAt, assertM, hm, decide_true, if_true, except_bind_ok, hLU, hlc, hur, hupc]
  refine ⟨_, hstep, getrfStep_inv hg hA.wf hF hf hsu hsl hm hI hstep, ?_, ?_, ?_, ?_, ?_⟩
  · show (st.2.2 || false) = false
    rw [hT.flag]
    rfl
  · intro i hi j hj h1 h2
    dsimp only
    rw [if_neg (by omega), if_neg (by omega), if_neg (by omega), if_pos (by omega)]
    exact (upE _ (by omega) _ (by omega)).2.all
  · intro i hi j hj h1 h2 x hx y hy
    dsimp only
    rw [if_neg (by omega), if_neg (by omega), if_neg (by omega), if_pos (by omega)]
    obtain ⟨a, rfl⟩ : ∃ a, i = m + 1 + a := ⟨i - (m + 1), by omega⟩
    obtain ⟨c, rfl⟩ : ∃ c, j = m + 1 + c := ⟨j - (m + 1), by omega⟩
    rw [show m + 1 + a - (m + 1) = a by omega, show m + 1 + c - (m + 1) = c by omega]
    have ha : a < n - (m + 1) := by omega
    have hc : c < n - (m + 1) := by omega
    obtain ⟨r1, t1, e10, e11, de1, x1⟩ := td (m + 1 + a) (by omega) m hm (by omega) le_rfl
    obtain ⟨r2, t2, e20, e21, de2, x2⟩ := td m hm (m + 1 + c) (by omega) le_rfl (by omega)
    obtain ⟨r3, t3, e30, e31, de3, x3⟩ := td (m + 1 + a) (by omega) (m + 1 + c) (by omega) (by omega) (by omega)
    have G := (hg _ _ _ _ _ _ _ _ (lcP a ha).wf (urP c hc).wf r3.wf t3.sqr (TransSafe_ff _ _)
      (fun h => h.elim) (collect2_ok hupc a ha c hc)).2
    have dd1 := (lcP a ha).shape.dims r1.wf
    have Ge := G.ent x (by rw [e30]; exact hx) y (by rw [e31]; exact hy)
      (x3.imp (fun h => h x (by rw [e30]; exact hx) y (by rw [e31]; exact hy)) id)
    rw [Ge, prodEntry_ff, dd1.2, e11, one_mul, neg_one_mul, add_comm, ← sub_eq_add_neg]
    have m1 := omono (m + 1 + a) (by omega)
    have m2 := omono (m + 1 + c) (by omega)
    have S := getrf_schur P (d0.trans d1.symm) dex
      (N := fun x y => elim (Mat.hier n n A0).entry (o m) (o m + x) (o m + y))
      (fun x hx y hy => dN x (by omega) y (by omega)) (fun l hl => ddom'.pivots (by omega))
      (F := st.2.1 (m + 1 + a) m) (G := st.2.1 m (m + 1 + c)) (l := lc a) (u := ur c)
      (i0 := o (m + 1 + a) - o m + x) (j0 := o (m + 1 + c) - o m + y) (x := x) (y := y)
      (by omega) (by omega) (by omega) (by omega)
      (fun t ht => by
        rw [hT.ent (m + 1 + a) (by omega) m hm (by omega) le_rfl x hx t (by omega)]
        show elim _ (o m) _ _ = elim _ (o m) _ _
        rw [show o m + (o (m + 1 + a) - o m + x) = o (m + 1 + a) + x by omega])
      (fun t ht => by
        rw [hT.ent m hm (m + 1 + c) (by omega) le_rfl (by omega) t (by omega) y hy]
        show elim _ (o m) _ _ = elim _ (o m) _ _
        rw [show o m + (o (m + 1 + c) - o m + y) = o (m + 1 + c) + y by omega])
      (fun t ht => (lcP a ha).ent x (by omega) t ht (x1.imp (fun h => h x (by omega) t ht) id))
      (fun t ht => (urP c hc).ent t ht y (by omega) (x2.imp (fun h => h t ht y (by omega)) id))
    rw [elim_shift] at S
    rw [hT.ent (m + 1 + a) (by omega) (m + 1 + c) (by omega) (by omega) (by omega) x hx y hy]
    rw [d0, show o m + (o (m + 1 + a) - o m + x) = o (m + 1 + a) + x by omega,
      show o m + (o (m + 1 + c) - o m + y) = o (m + 1 + c) + y by omega] at S
    rw [← osucc] at S
    exact S.symm
  · intro t ht htm
    dsimp only
    by_cases e : t = m
    · subst e
      rw [if_pos ⟨rfl, rfl⟩]
      exact ⟨Lr, by omega⟩
    · rw [if_neg (by omega), if_neg (by omega), if_neg (by omega)]
      exact hT.low t ht (by omega)
  · intro t ht htm
    dsimp only
    by_cases e : t = m
    · subst e
      rw [if_pos ⟨rfl, rfl⟩]
      exact ⟨Ur, by omega⟩
    · rw [if_neg (by omega), if_neg (by omega), if_neg (by omega), if_neg (by omega)]
      exact hT.up t ht (by omega)

theorem getrfWith_total {ex : Prop} {Q : LowRank R → Prop} (hQ : OuterStable Q)
    {lu : Dense R → Dense R × Bool} (hlu : LuContract lu) (hnp : LuNoPivot lu) {b d : Nat} {g : GemmT R}
    (hG : GemmTot Q b d g) (hg : GemmOk ex False g) {fs : Nat} (hfs : 2 * d + 2 ≤ fs) (fuel : Nat) :
    ∀ A : Mat R, A.Regular b → A.Square → A.All Q → A.LuSolvable b → A.depth ≤ d → A.depth + 1 ≤ fuel →
      (A.AllDense ∨ ex) → ColDom 0 A.nRows A.entry →
      ∃ L U, getrfWith lu g (trsmWith g .upper .right fs) (trsmWith g .lower .left fs) fuel A =
          .ok (L, U, false) ∧
        L.TriRegular b .lower ∧ U.TriRegular b .upper ∧ L.depth ≤ A.depth ∧ U.depth ≤ A.depth := by
  have ok := getrfWith_ok (ex := ex) hlu hg
    (su := trsmWith g .upper .right fs) (sl := trsmWith g .lower .left fs)
    (fun A B B' h1 h2 h3 h4 h5 h6 h7 =>
      trsmWith_ok hg (side := .right) (uplo := .upper) fs A B B' h1 h2 h3 h4 h5 h6 h7)
    (fun A B B' h1 h2 h3 h4 h5 h6 h7 =>
      trsmWith_ok hg (side := .left) (uplo := .lower) fs A B B' h1 h2 h3 h4 h5 h6 h7)
  induction fuel with
  | zero => intro A _ _ _ _ _ h; omega
  | succ fuel ih =>
    intro A hA hs hq hS dA hfu hex hdom
    cases A with
    | lowRank a => exact hS.elim
    | empty => exact hS.elim
    | dense a =>
      have ha : a.rows = a.cols := hS
      have hfl : (lu a).2 = false := by
        refine hnp a ha (fun j hj => ?_)
        have := hdom j (Nat.zero_le _) (by rw [show (Mat.dense a).nRows = a.rows from rfl, ha]; exact hj)
        rw [Nat.Ico_zero_eq_range] at this
        exact this
      refine ⟨.dense ⟨a.rows, a.cols, fun i j => if j < i then (lu a).1.val i j else if i = j then 1 else 0⟩,
        .dense ⟨a.rows, a.cols, fun i j => if j < i then 0 else (lu a).1.val i j⟩, ?_,
        ⟨trivial, trivial, ha⟩, ⟨trivial, trivial, ha⟩, le_rfl, le_rfl⟩
      · simp only [getrfWith, getrfDense, assertM, ha, le_refl, decide_true, if_true, except_bind_ok, hfl]
    | hier p q A0 =>
      obtain rfl : p = q := hS.1
      have hF := hS.luFits
      have hD := hF.diagSquare
      have hA' := hA.wf
      simp only [WF] at hA'
      obtain ⟨hn0, -, hAd⟩ := hA'
      have hw := hD.widths hA.wf
      have dAb : ∀ i < p, ∀ j < p, (A0 i j).depth + 1 ≤ (Mat.hier p p A0).depth :=
        fun i hi j hj => depth_block hi hj
      have h0 : LuInv ex p A0 0 ((fun _ _ => .empty 0 0, A0, false) : LuState R) ∧
          LuTot Q b p ((Mat.hier p p A0).depth - 1) A0 0 ((fun _ _ => .empty 0 0, A0, false) : LuState R) := by
        constructor
        · refine ⟨fun a ha c hc _ _ => ⟨(hAd a ha c hc).1, hs a ha c hc, SameShape.refl _, fun x hx y hy _ => ?_⟩,
            fun t _ ht => by omega, fun t _ ht => by omega, fun t _ ht => by omega, fun _ a ha c hc h => by omega⟩
          simp
        · refine ⟨rfl, fun i hi j hj _ _ => hq i hi j hj, fun i hi j hj _ _ x hx y hy => ?_,
            fun t _ ht => by omega, fun t _ ht => by omega⟩
          have e : psum (fun k => (A0 k 0).nRows) j = psum (fun k => (A0 0 k).nCols) j :=
            psum_congr (fun k hk => (hw k (by omega)).symm)
          show _ = (Mat.hier p p A0).entry _ _
          rw [e]
          exact (entry_block hi hj hx (by rw [hw j hj]; exact hy)).symm
      obtain ⟨st, hst, hI, hT⟩ := loop_total (n := p)
        (body := getrfStep g (getrfWith lu g (trsmWith g .upper .right fs) (trsmWith g .lower .left fs) fuel)
          (trsmWith g .upper .right fs) (trsmWith g .lower .left fs) p p)
        (s := ((fun _ _ => .empty 0 0, A0, false) : LuState R))
        (fun m st => LuInv ex p A0 m st ∧ LuTot Q b p ((Mat.hier p p A0).depth - 1) A0 m st)
        h0
        (fun m hm st hI => getrfStep_total hQ hG hg hfs hA dA hS hex hdom (ok fuel)
          (fun A h1 h2 h3 h4 h5 h6 h7 => ih A h1 h2 h3 h4 (by omega) (by omega) h6 h7) hm hI.1 hI.2)
      have P := hI.post hA.wf hF
      have lb : ∀ i < p, ∀ j < p, (st.1 i j).Even ∧ (st.1 i j).nRows = (A0 i j).nRows ∧
          (st.1 i j).nCols = (A0 i j).nCols ∧ (st.1 i j).depth ≤ (Mat.hier p p A0).depth - 1 := by
        intro i hi j hj
        have db := dAb i hi j hj
        rcases Nat.lt_trichotomy i j with hlt | heq | hgt
        · rw [(hI.up i hi hi j hj hlt).2.2.2]
          exact ⟨trivial, rfl, rfl, Nat.zero_le _⟩
        · subst heq
          obtain ⟨S, h1, h2, h3⟩ := hI.diag i hi hi
          have dd := h1.dims (hAd i hi i hi).1
          exact ⟨(hT.low i hi hi).1.even, h3.lrows.trans dd.1, h3.lcols.trans dd.2, (hT.low i hi hi).2⟩
        · obtain ⟨h1, -, h2, -⟩ := hI.low j hj hj i hi hgt
          have dd := h2.dims (hAd i hi j hj).1
          exact ⟨(h2.regular h1 (hA.block hi hj)).even, dd.1, dd.2, by rw [h2.depth]; omega⟩
      have ub : ∀ i < p, ∀ j < p, (st.2.1 i j).Even ∧ (st.2.1 i j).nRows = (A0 i j).nRows ∧
          (st.2.1 i j).nCols = (A0 i j).nCols ∧ (st.2.1 i j).depth ≤ (Mat.hier p p A0).depth - 1 := by
        intro i hi j hj
        have db := dAb i hi j hj
        rcases Nat.lt_trichotomy i j with hlt | heq | hgt
        · obtain ⟨h1, -, h2, -⟩ := hI.up i hi hi j hj hlt
          have dd := h2.dims (hAd i hi j hj).1
          exact ⟨(h2.regular h1 (hA.block hi hj)).even, dd.1, dd.2, by rw [h2.depth]; omega⟩
        · subst heq
          obtain ⟨S, h1, h2, h3⟩ := hI.diag i hi hi
          have dd := h1.dims (hAd i hi i hi).1
          exact ⟨(hT.up i hi hi).1.even, h3.urows.trans dd.1, h3.ucols.trans dd.2, (hT.up i hi hi).2⟩
        · rw [(hI.low j hj hj i hi hgt).2.2.2]
          exact ⟨trivial, rfl, rfl, Nat.zero_le _⟩
      obtain ⟨hpb, -, -⟩ := hA.sub
      have d0 : 1 ≤ (Mat.hier p p A0).depth := by simp only [depth]; omega
      refine ⟨.hier p p st.1, .hier p p st.2.1, ?_, ⟨P.lwf, ?_, ?_⟩, ⟨P.uwf, ?_, ?_⟩, ?_, ?_⟩
      · simp only [getrfWith, hst, except_bind_ok, hT.flag]
      · exact hA.even.of_dims hn0 hn0 (fun i hi j hj => ⟨(lb i hi j hj).1, (lb i hi j hj).2.1,
          (lb i hi j hj).2.2.1⟩)
      · refine ⟨hpb, hpb, fun i hi => (hT.low i hi hi).1.sub, fun i hi k hk (hik : k < i) => ?_⟩
        obtain ⟨h1, -, h2, -⟩ := hI.low k hk hk i hi hik
        exact (h2.regular h1 (hA.block hi hk)).sub
      · exact hA.even.of_dims hn0 hn0 (fun i hi j hj => ⟨(ub i hi j hj).1, (ub i hi j hj).2.1,
          (ub i hi j hj).2.2.1⟩)
      · refine ⟨hpb, hpb, fun i hi => (hT.up i hi hi).1.sub, fun i hi k hk (hik : i < k) => ?_⟩
        obtain ⟨h1, -, h2, -⟩ := hI.up i hi hi k hk hik
        exact (h2.regular h1 (hA.block hi hk)).sub
      · refine (depth_hier_le (fun i hi j hj => (lb i hi j hj).2.2.2)).trans ?_
        omega
      · refine (depth_hier_le (fun i hi j hj => (ub i hi j hj).2.2.2)).trans ?_
        omega

end
end Mat
end Verif
