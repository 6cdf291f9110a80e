import Verif.Lemmas.QrCols

/-!
Tiled Householder QR: the kernels on tiles.
-/

set_option linter.unusedSectionVars false
set_option linter.unusedVariables false

namespace Verif
open Finset

variable {R : Type} [CommRing R]

namespace Mat

/-- The rows the reflector of tile `(i,k)` acts on: the first `n` rows of block `k`
and the rows of block `i`; for `i = k` the rows of block `k`. -/
def pairRows (k i n : Nat) (h : Nat → Nat) : Finset Ix :=
  ({k, i} : Finset Nat).sigma (fun b => range (if b = i then h b else n))

theorem mem_pairRows {k i n : Nat} {h : Nat → Nat} {x : Ix} :
    x ∈ pairRows k i n h ↔ (x.1 = i ∧ x.2 < h i) ∨ (x.1 = k ∧ k ≠ i ∧ x.2 < n) := by
  obtain ⟨b, l⟩ := x
  simp only [pairRows, Finset.mem_sigma, Finset.mem_insert, Finset.mem_singleton, Finset.mem_range]
  by_cases hb : b = i
  · subst hb
    simp only [if_true, or_true, true_and]
    constructor
    · exact Or.inl
    · rintro (h | ⟨h, h', -⟩)
      · exact h
      · exact absurd h.symm h'
  · simp only [hb, if_false, or_false, false_and, false_or]
    constructor
    · rintro ⟨rfl, h⟩
      exact ⟨rfl, hb, h⟩
    · rintro ⟨rfl, -, h⟩
      exact ⟨rfl, h⟩

theorem sum_pairRows_self {k n : Nat} {h : Nat → Nat} (f : Ix → R) :
    ∑ x ∈ pairRows k k n h, f x = ∑ l ∈ range (h k), f ⟨k, l⟩ := by
  unfold pairRows
  rw [Finset.sum_sigma, Finset.pair_eq_singleton, Finset.sum_singleton, if_pos rfl]

theorem sum_pairRows {k i n : Nat} {h : Nat → Nat} (hne : k ≠ i) (f : Ix → R) :
    ∑ x ∈ pairRows k i n h, f x = ∑ l ∈ range n, f ⟨k, l⟩ + ∑ l ∈ range (h i), f ⟨i, l⟩ := by
  unfold pairRows
  rw [Finset.sum_sigma, Finset.sum_pair hne, if_pos rfl, if_neg hne]

/-- Householder vectors of tile `Y` at `(i,k)`: for `i = k` its unit lower trapezoid,
otherwise the identity in block `k` and the tile in block `i`. -/
def pairV (k i : Nat) (Y : Mat R) (x : Ix) (a : Nat) : R :=
  if i = k then Y.triEntry .lower true x.2 a
  else if x.1 = k then (if x.2 = a then 1 else 0) else Y.entry x.2 a

/-- The reflector is linear. -/
theorem refl_sum {ι κ : Type} {D : Finset ι} {n : Nat} {Y : ι → Nat → R} {T : Nat → Nat → R}
    (s : Finset κ) (f : κ → ι → R) (z : κ → R) (i : ι) :
    ∑ c ∈ s, refl D n Y T (f c) i * z c = refl D n Y T (fun l => ∑ c ∈ s, f c l * z c) i := by
  unfold refl
  simp only [sub_mul, Finset.sum_sub_distrib]
  congr 1
  simp only [Finset.mul_sum, Finset.sum_mul]
  rw [Finset.sum_comm]
  refine Finset.sum_congr rfl (fun a _ => ?_)
  rw [Finset.sum_comm]
  refine Finset.sum_congr rfl (fun b _ => ?_)
  rw [Finset.sum_comm]
  refine Finset.sum_congr rfl (fun l _ => ?_)
  refine Finset.sum_congr rfl (fun c _ => ?_)
  ring

/-! ### `larfb` -/

theorem Dense_larfb_ok {V T C D : Dense R} {trans : Bool} (h : Dense.larfb V T C trans = .ok D) :
    D.rows = C.rows ∧ D.cols = C.cols ∧ ∀ i j, D.val i j =
      refl (range C.rows) T.cols (V.tri .lower true) (opFun trans (T.tri .upper false))
        (fun l => C.val l j) i := by
  unfold Dense.larfb at h
  split at h
  · cases Except.ok.inj h
    exact ⟨rfl, rfl, fun i j => rfl⟩
  · cases h

theorem larfb_ok {ex : Prop} {trans : Bool} {V T C C' : Mat R} (hC : Good ex C)
    (h : larfb trans V T C = .ok C') :
    ∃ v t : Dense R, V = .dense v ∧ T = .dense t ∧ C.IsTile ∧ Good ex C' ∧ C.SameShape C' ∧
      ∀ i < C.nRows, ∀ j < C.nCols, C'.entry i j =
        refl (range C.nRows) t.cols (v.tri .lower true) (opFun trans (t.tri .upper false))
          (fun l => C.entry l j) i := by
  cases V with
  | hier | empty | lowRank => cases T <;> cases C <;> cases h
  | dense v =>
    cases T with
    | hier | empty | lowRank => cases C <;> cases h
    | dense t =>
      refine ⟨v, t, rfl, rfl, ?_⟩
      cases C with
      | hier | empty => cases h
      | dense c =>
        simp only [larfb, except_bind_eq_ok] at h
        obtain ⟨d, hd, h⟩ := h
        cases Except.ok.inj h
        obtain ⟨h1, h2, h3⟩ := Dense_larfb_ok hd
        have sh : (Mat.dense c).SameShape (.dense d) := ⟨h1.symm, h2.symm⟩
        exact ⟨trivial, hC.of_shape trivial trivial sh, sh, fun i _ j _ => h3 i j⟩
      | lowRank c =>
        simp only [larfb, except_bind_eq_ok] at h
        obtain ⟨d, hd, h⟩ := h
        cases Except.ok.inj h
        obtain ⟨h1, h2, h3⟩ := Dense_larfb_ok hd
        have hw : c.WF := hC.wf
        have sh : (Mat.lowRank c).SameShape (.lowRank { c with U := d }) := ⟨rfl, rfl⟩
        refine ⟨trivial, hC.of_shape ⟨h1.trans hw.urows, h2.trans hw.ucols, hw.srows, hw.vrows, hw.vcols⟩
          hC.sqr sh, sh, fun i _ j _ => ?_⟩
        have e : ∀ (U : Dense R) l, LowRank.entry { c with U := U } l j =
            ∑ a ∈ range c.S.rows, U.val l a * ∑ b ∈ range c.S.cols, c.S.val a b * c.V.val b j := by
          intro U l
          have := congrFun (congrFun (mm_assoc c.S.cols c.S.rows U.val c.S.val c.V.val) l) j
          exact this
        change LowRank.entry { c with U := d } i j = refl (range c.dim0) _ _ _ (fun l => c.entry l j) i
        rw [e d i, Finset.sum_congr rfl (fun a _ => by rw [h3 i a]), refl_sum, hw.urows]
        congr 1
        funext l
        exact (e c.U l).symm

/-! ### `tpmqrt` -/

variable [DecidableEq R] {o : LrOps R}

/-- `op(T) (A + V^T B)`. -/
def tpX (n : Nat) (V : Mat R) (T : Nat → Nat → R) (A B : Mat R) (a y : Nat) : R :=
  ∑ b ∈ range n, T a b * (A.entry b y + ∑ l ∈ range B.nRows, V.entry l b * B.entry l y)

/-- What `tpmqrt` does. -/
structure TpPost (o : LrOps R) (ex : Prop) (trans : Bool) (V A B A' B' : Mat R) (t : Dense R) : Prop where
  tileV : V.IsTile
  tileA : A.IsTile
  tileB : B.IsTile
  goodA : Good ex A'
  goodB : Good ex B'
  shapeA : A.SameShape A'
  shapeB : B.SameShape B'
  orth : o.LeftOrth → B.LrO → B'.LrO
  entA : ∀ i < A.nRows, ∀ j < A.nCols, A'.entry i j = A.entry i j -
    if i < t.cols then tpX t.cols V (opFun trans (t.tri .upper false)) A B i j else 0
  entB : ∀ i < B.nRows, ∀ j < B.nCols, B'.entry i j = B.entry i j -
    ∑ a ∈ range t.cols, V.entry i a * tpX t.cols V (opFun trans (t.tri .upper false)) A B a j

theorem tpmqrtProducts_ok (hf : o.Fits False) {ex : Prop} (hex : ex → o.Exact False) {fuel : Nat}
    {trans tv : Bool} {V A B Vt C0 : Mat R} {t : Dense R} {x : Mat R × Mat R}
    (hV : V.WF) (tV : V.IsTile) (hA : Good ex A) (tA : A.IsTile) (hB : Good ex B) (tB : B.IsTile)
    (dV : V.nRows = B.nRows) (tc : t.cols = t.rows)
    (hVt : Vt.WF) (ts : TransSafe tv false Vt B)
    (eVt : ∀ a < t.cols, ∀ l < V.nRows, Vt.opEntry tv a l = V.entry l a)
    (hC : Good ex C0) (tC : C0.IsTile) (rC : C0.nRows = A.nRows) (cC : C0.nCols = A.nCols)
    (eC : ∀ i < A.nRows, ∀ j < A.nCols, C0.entry i j = A.entry i j)
    (h : tpmqrtProducts o fuel trans V (.dense t) A B Vt tv C0 = .ok x) :
    TpPost o ex trans V A B x.1 x.2 t := by
  simp only [tpmqrtProducts, except_bind_eq_ok] at h
  obtain ⟨C1, hC1, C2, hC2, n, hn, A', hA', B', hB', h⟩ := h
  cases Except.ok.inj h
  obtain ⟨-, -, d3, g1, s1, e1⟩ := gemm_good hf hex hVt hB.wf hC ts hC1
  have D1 := s1.dims hC.wf
  obtain ⟨-, tr1, g2, s2, e2⟩ := trmm_tile g1 (tC.of_shape s1) hC2
  have D2 := s2.dims g1.wf
  rw [getNRows_eq C2 g2.wf] at hn
  cases Except.ok.inj hn
  obtain ⟨-, -, -, gA, sA, eA⟩ := gemm_good hf hex (by trivial) g2.wf hA (TransSafe_ff _ _) hA'
  obtain ⟨-, -, cc, gB, sB, eB⟩ := gemm_good hf hex hV g2.wf hB (TransSafe_ff _ _) hB'
  have nA : t.cols = A.nRows := by rw [tc, tr1, D1.1, rC]
  have key : ∀ a < A.nRows, ∀ y < A.nCols, C2.entry a y =
      tpX t.cols V (opFun trans (t.tri .upper false)) A B a y := by
    intro a ha y hy
    rw [e2 a (by rw [D1.1, rC]; exact ha) y (by rw [D1.2, cC]; exact hy), ← tc]
    unfold tpX
    refine Finset.sum_congr rfl (fun b hb => ?_)
    have hb := Finset.mem_range.1 hb
    congr 1
    rw [e1 b (by rw [rC, ← nA]; exact hb) y (by rw [cC]; exact hy), eC b (by rw [← nA]; exact hb) y hy,
      one_mul, one_mul, add_comm]
    congr 1
    exact Finset.sum_congr rfl (fun l hl => by
      rw [eVt b hb l (by rw [dV]; exact Finset.mem_range.1 hl)])
  refine ⟨tV, tA, tB, gA, gB, sA, sB, fun ho hl => ?_, fun i hi j hj => ?_, fun i hi j hj => ?_⟩
  · intro l hl'
    have sB := sB
    change B' = _ at hl'
    subst hl'
    cases B with
    | hier => exact sB.elim
    | empty => exact sB.elim
    | dense => exact sB.elim
    | lowRank b =>
      obtain ⟨c', e, h'⟩ := gemm_leftOrth ho tV ((tC.of_shape s1).of_shape s2) hB'
      cases e
      exact h'
  · rw [eA i hi j hj, if_pos (by rw [nA]; exact hi), ← key i hi j hj]
    have r2 : C2.nRows = A.nRows := by rw [D2.1, D1.1, rC]
    simp only [opEntry, Bool.false_eq_true, if_false]
    rw [r2, ident_mul i j hi, one_mul, neg_mul, one_mul, neg_add_eq_sub]
  · have hj' : j < A.nCols := by rw [← cC, ← d3]; exact hj
    rw [eB i hi j hj, one_mul, neg_mul, one_mul, neg_add_eq_sub]
    congr 1
    have r2 : C2.nRows = t.cols := by rw [D2.1, D1.1, rC, nA]
    rw [r2]
    refine Finset.sum_congr rfl (fun a ha => ?_)
    have ha := Finset.mem_range.1 ha
    rw [key a (by rw [← nA]; exact ha) j hj']
    rfl

theorem tprfb_ok {ex : Prop} {V T A B : Dense R} {x : Dense R × Dense R} {trans : Bool}
    (hA : Good ex (.dense A)) (hB : Good ex (.dense B)) (hAB : A.cols = B.cols)
    (h : Dense.tprfb V T A B trans = .ok x) :
    TpPost o ex trans (.dense V) (.dense A) (.dense B) (.dense x.1) (.dense x.2) T := by
  simp only [Dense.tprfb] at h
  split at h
  · rename_i hc
    cases Except.ok.inj h
    refine ⟨trivial, trivial, trivial, hA.of_shape trivial trivial ⟨rfl, rfl⟩,
      hB.of_shape trivial trivial ⟨rfl, rfl⟩, ⟨rfl, rfl⟩, ⟨rfl, rfl⟩, (fun _ _ l hl => by cases hl),
      fun i _ j hj => ?_, fun i _ j _ => rfl⟩
    have hj : j < B.cols := by rw [← hAB]; exact hj
    show (if i < T.cols ∧ j < B.cols then _ else _) = _
    by_cases hi : i < T.cols
    · rw [if_pos ⟨hi, hj⟩, if_pos hi]
      rfl
    · rw [if_neg (by tauto), if_neg hi, sub_zero]
      rfl
  · cases h

theorem tpmqrt_ok (hf : o.Fits False) {ex : Prop} (hex : ex → o.Exact False) {fuel : Nat}
    {trans : Bool} {V A B : Mat R} {t : Dense R} {x : Mat R × Mat R}
    (hV : V.WF) (hA : Good ex A) (hB : Good ex B) (dV : V.nRows = B.nRows) (cV : V.nCols = t.cols)
    (tc : t.cols = t.rows) (cAB : A.nCols = B.nCols)
    (h : tpmqrt o fuel trans V (.dense t) A B = .ok x) : TpPost o ex trans V A B x.1 x.2 t := by
  have lr : ∀ v : LowRank R, V = .lowRank v → ∀ C0 : Mat R, Good ex C0 → C0.IsTile → C0 = A → A.IsTile →
      B.IsTile → tpmqrtProducts o fuel trans V (.dense t) A B (.lowRank v.transpose) false C0 = .ok x →
      TpPost o ex trans V A B x.1 x.2 t := by
    rintro v rfl C0 g tC rfl tA tB h
    obtain ⟨tw, -, -, -, te⟩ := transpose_spec hV (T := .lowRank v.transpose) rfl
    exact tpmqrtProducts_ok hf hex hV trivial g tC hB tB dV tc tw (TransSafe_ff _ _)
      (fun a ha l hl => te l hl a (by rw [cV]; exact ha)) g tC rfl rfl (fun _ _ _ _ => rfl) h
  have dn : ∀ v : Dense R, V = .dense v → ∀ C0 : Mat R, Good ex C0 → C0.IsTile → C0 = A → A.IsTile →
      B.IsTile → tpmqrtProducts o fuel trans V (.dense t) A B (.dense v.transpose) false C0 = .ok x →
      TpPost o ex trans V A B x.1 x.2 t := by
    rintro v rfl C0 g tC rfl tA tB h
    obtain ⟨tw, -, -, -, te⟩ := transpose_spec hV (T := .dense v.transpose) rfl
    exact tpmqrtProducts_ok hf hex hV trivial g tC hB tB dV tc tw (TransSafe_ff _ _)
      (fun a ha l hl => te l hl a (by rw [cV]; exact ha)) g tC rfl rfl (fun _ _ _ _ => rfl) h
  cases V with
  | hier => cases A <;> cases B <;> cases h
  | empty => cases A <;> cases B <;> cases h
  | dense v =>
    cases A with
    | hier => cases B <;> cases h
    | empty => cases B <;> cases h
    | dense a =>
      cases B with
      | hier => cases h
      | empty => cases h
      | dense b =>
        simp only [tpmqrt, except_bind_eq_ok] at h
        obtain ⟨y, hy, h⟩ := h
        cases Except.ok.inj h
        exact tprfb_ok hA hB cAB hy
      | lowRank b => exact dn v rfl (.dense a) hA trivial rfl trivial trivial h
    | lowRank a =>
      cases B with
      | hier => cases h
      | empty => cases h
      | dense b =>
        simp only [tpmqrt, except_bind_eq_ok] at h
        obtain ⟨c, hc, h⟩ := h
        obtain ⟨c', hc', c0, c1, ce⟩ := LowRank_toDense_ok a hA.wf
        rw [hc] at hc'
        cases Except.ok.inj hc'
        exact tpmqrtProducts_ok (C0 := .dense c) hf hex hV trivial hA trivial hB trivial dV tc hV
          (TransSafe_dense_left _ _) (fun _ _ _ _ => rfl)
          ⟨trivial, trivial, Or.inl (fun _ _ _ _ => trivial)⟩ trivial c0 c1 (fun i _ j _ => ce i j) h
      | lowRank b => exact dn v rfl (.lowRank a) hA trivial rfl trivial trivial h
  | lowRank v =>
    cases A with
    | hier => cases B <;> cases h
    | empty => cases B <;> cases h
    | dense a =>
      cases B with
      | hier => cases h
      | empty => cases h
      | dense b => exact lr v rfl (.dense a) hA trivial rfl trivial trivial h
      | lowRank b => exact lr v rfl (.dense a) hA trivial rfl trivial trivial h
    | lowRank a =>
      cases B with
      | hier => cases h
      | empty => cases h
      | dense b => exact lr v rfl (.lowRank a) hA trivial rfl trivial trivial h
      | lowRank b => exact lr v rfl (.lowRank a) hA trivial rfl trivial trivial h

/-! ### `geqrt` and `tpqrt` -/

/-- The lower part of a tile is all `larfb` reads. -/
def LowEq (X Y : Mat R) : Prop := ∃ a b : Dense R, X = .dense a ∧ Y = .dense b ∧
  a.rows = b.rows ∧ a.cols = b.cols ∧ ∀ i j, j < i → a.val i j = b.val i j

theorem LowEq.tri {a b : Dense R} (h : LowEq (.dense a) (.dense b)) : a.tri .lower true = b.tri .lower true := by
  obtain ⟨_, _, h1, h2, -, -, h⟩ := h
  cases h1
  cases h2
  funext i j
  unfold Dense.tri
  by_cases e : i = j
  · rw [if_pos e, if_pos e]; rfl
  · rw [if_neg e, if_neg e]
    dsimp only
    by_cases e' : j < i
    · rw [if_pos e', if_pos e', h i j e']
    · rw [if_neg e', if_neg e']

theorem LowEq.larfb {X Y : Mat R} (h : LowEq X Y) (trans : Bool) (t c : Mat R) :
    Mat.larfb trans X t c = Mat.larfb trans Y t c := by
  obtain ⟨a, b, rfl, rfl, h1, h2, h3⟩ := h
  have ht := LowEq.tri ⟨a, b, rfl, rfl, h1, h2, h3⟩
  have e : ∀ t c : Dense R, Dense.larfb a t c trans = Dense.larfb b t c trans := by
    intro t c
    simp only [Dense.larfb, h1, h2, ht]
  cases t <;> cases c <;> simp only [Mat.larfb, e]

theorem LowEq.trans {X Y Z : Mat R} (h : LowEq X Y) (h' : LowEq Y Z) : LowEq X Z := by
  obtain ⟨a, b, rfl, rfl, h1, h2, h3⟩ := h
  obtain ⟨_, c, e, rfl, h4, h5, h6⟩ := h'
  cases e
  exact ⟨a, c, rfl, rfl, h1.trans h4, h2.trans h5, fun i j hij => (h3 i j hij).trans (h6 i j hij)⟩

theorem LowEq.refl (d : Dense R) : LowEq (.dense d) (.dense d) :=
  ⟨d, d, rfl, rfl, rfl, rfl, fun _ _ _ => rfl⟩

theorem LowEq.pairV {X Y : Mat R} (h : LowEq X Y) (k : Nat) (x : Ix) (a : Nat) :
    pairV k k X x a = pairV k k Y x a := by
  obtain ⟨a, b, rfl, rfl, h1, h2, h3⟩ := h
  have ht := LowEq.tri ⟨a, b, rfl, rfl, h1, h2, h3⟩
  simp only [Mat.pairV, if_true, triEntry_dense, ht]

theorem geqrt_ok {K : QrKernels R} (hK : QrContract K) {A T : Mat R} {x : Mat R × Mat R}
    (h : geqrt K A T = .ok x) :
    ∃ a a' t : Dense R, A = .dense a ∧ x.1 = .dense a' ∧ x.2 = .dense t ∧ a'.rows = a.rows ∧
      a'.cols = a.cols ∧ a.cols ≤ a.rows ∧ t.rows = a.cols ∧ t.cols = a.cols ∧
      ∀ (k n : Nat) (h : Nat → Nat), h k = a.rows →
        ReflOrth (pairRows k k n h) a.cols (pairV k k x.1) (t.tri .upper false) ∧
        ∀ y < a.cols, ∀ v : Ix → R, (∀ l < a.rows, v ⟨k, l⟩ = a.val l y) → ∀ z ∈ pairRows k k n h,
          refl (pairRows k k n h) a.cols (pairV k k x.1) (tr (t.tri .upper false)) v z =
            if z.2 ≤ y then a'.val z.2 y else 0 := by
  cases A with
  | hier | empty | lowRank => cases T <;> cases h
  | dense a =>
    cases T with
    | hier | empty | lowRank => cases h
    | dense t =>
      simp only [geqrt, except_bind_eq_ok] at h
      obtain ⟨y, hy, h⟩ := h
      cases Except.ok.inj h
      simp only [Dense.geqrt, except_bind_eq_ok] at hy
      obtain ⟨-, -, -, -, hy⟩ := hy
      split at hy
      case isFalse => cases hy
      case isTrue hle =>
      cases Except.ok.inj hy
      refine ⟨a, _, _, rfl, rfl, rfl, rfl, rfl, hle, rfl, rfl, fun k n h hk => ?_⟩
      have hW : ∀ c < a.rows, ∀ d < a.rows, ∑ x ∈ pairRows k k n h,
          (if x.2 = c then (1 : R) else 0) * (if x.2 = d then 1 else 0) = if c = d then 1 else 0 := by
        intro c hc d hd
        rw [sum_pairRows_self, hk]
        simp only [ite_mul, one_mul, zero_mul]
        rw [Finset.sum_ite_eq' (range a.rows), if_pos (Finset.mem_range.2 hc)]
      have hr : ∀ {z : Ix}, z ∈ pairRows k k n h → z = ⟨k, z.2⟩ ∧ z.2 ∈ range a.rows := by
        intro z hz
        obtain ⟨b, l⟩ := z
        rcases mem_pairRows.1 hz with ⟨h1, h2⟩ | ⟨-, h2, -⟩
        · simp only at h1 h2
          subst h1
          exact ⟨rfl, Finset.mem_range.2 (by rw [← hk]; exact h2)⟩
        · exact absurd rfl h2
      have hY : ∀ x ∈ pairRows k k n h, ∀ c < a.cols,
          pairV k k (.dense ⟨a.rows, a.cols, (K.geqrt3 a).1⟩) x c =
          ∑ b ∈ range a.rows, (if x.2 = b then (1 : R) else 0) *
            Dense.tri ⟨a.rows, a.cols, (K.geqrt3 a).1⟩ .lower true b c := by
        intro x hx c _
        simp only [ite_mul, one_mul, zero_mul]
        rw [Finset.sum_ite_eq, if_pos (hr hx).2]
        simp only [pairV, if_true, triEntry_dense]
      refine ⟨reflOrth_lift (hK.geqrt_orth a hle) hW hY, ?_⟩
      intro y hy v hv z hz
      rw [refl_lift hW hY (x := v) (z := fun c => a.val c y) (by
        intro x hx
        simp only [ite_mul, one_mul, zero_mul]
        rw [Finset.sum_ite_eq, if_pos (hr hx).2, (hr hx).1]
        exact hv _ (Finset.mem_range.1 (hr hx).2)) z hz]
      simp only [ite_mul, one_mul, zero_mul]
      rw [Finset.sum_ite_eq, if_pos (hr hz).2, refl_range (Finset.mem_range.1 (hr hz).2)]
      exact hK.geqrt_factor a hle _ (Finset.mem_range.1 (hr hz).2) y hy

/-- `tpqrt` through the right factor of the tile. -/
theorem tpqrt_inv {K : QrKernels R} {A B T : Mat R} {x : Mat R × Mat R × Mat R}
    (h : tpqrt K A B T = .ok x) : ∃ (a t D : Dense R) (y : Dense R × Dense R × Dense R),
      A = .dense a ∧ T = .dense t ∧ rightFactor B = .ok D ∧ Dense.tpqrt K a D t = .ok y ∧
      updateRightFactor B y.2.1 = .ok x.2.1 ∧ x.1 = .dense y.1 ∧ x.2.2 = .dense y.2.2 := by
  cases A with
  | hier | empty | lowRank => cases B <;> cases T <;> cases h
  | dense a =>
    cases T with
    | hier | empty | lowRank => cases B <;> cases h
    | dense t =>
      cases B with
      | hier => cases h
      | empty => cases h
      | dense b =>
        simp only [tpqrt, except_bind_eq_ok] at h
        obtain ⟨y, hy, h⟩ := h
        cases Except.ok.inj h
        exact ⟨a, t, b, y, rfl, rfl, rfl, hy, rfl, rfl, rfl⟩
      | lowRank b =>
        simp only [tpqrt, except_bind_eq_ok] at h
        obtain ⟨sv, hsv, y, hy, h⟩ := h
        cases Except.ok.inj h
        exact ⟨a, t, sv, y, rfl, rfl, hsv, hy, rfl, rfl, rfl⟩

theorem tpqrt_ok {K : QrKernels R} (hK : QrContract K) {A B T : Mat R} {x0 : Mat R × Mat R × Mat R}
    (hw : B.WF) (hs : B.Square) (h : tpqrt K A B T = .ok x0) :
    ∃ a a' t t' : Dense R, A = .dense a ∧ x0.1 = .dense a' ∧ T = .dense t ∧ x0.2.2 = .dense t' ∧
      a'.rows = a.rows ∧ a'.cols = a.cols ∧ (∀ i j, j < i → a.val i j = a'.val i j) ∧
      t'.rows = t.rows ∧ t'.cols = t.cols ∧ B.nCols ≤ a.rows ∧
      B.IsTile ∧ B.SameShape x0.2.1 ∧ x0.2.1.WF ∧ x0.2.1.Square ∧
      (B.LeftO → ∀ (k i : Nat) (h : Nat → Nat), k ≠ i → h i = B.nRows →
        ReflOrth (pairRows k i B.nCols h) B.nCols (pairV k i x0.2.1) (t'.tri .upper false) ∧
        ∀ y < B.nCols, ∀ v : Ix → R,
          (∀ l < B.nCols, v ⟨k, l⟩ = if l ≤ y then a.val l y else 0) →
          (∀ l < B.nRows, v ⟨i, l⟩ = B.entry l y) → ∀ z ∈ pairRows k i B.nCols h,
          refl (pairRows k i B.nCols h) B.nCols (pairV k i x0.2.1) (tr (t'.tri .upper false)) v z =
            if z.1 = k ∧ z.2 ≤ y then a'.val z.2 y else 0) := by
  obtain ⟨a, t, D, y, rfl, rfl, hD, hy, hu, h1, h2⟩ := tpqrt_inv h
  obtain ⟨tB, Dc, De, Do⟩ := rightFactor_spec hw hD
  simp only [Dense.tpqrt] at hy
  split at hy
  case isFalse => cases hy
  case isTrue hc =>
  rw [Dc] at hc hy
  set n := B.nCols with hn
  set A0 : Dense R := ⟨n, n, fun i j => if i ≤ j ∧ j < n then a.val i j else 0⟩ with hA0
  have hy := Except.ok.inj hy
  obtain ⟨sh, wf', sq', -, ent⟩ := updateRightFactor_spec (X := y.2.1) hw hs hD (by rw [← hy]) (by rw [← hy, Dc]) hu
  refine ⟨a, y.1, t, y.2.2, rfl, h1, rfl, h2, by rw [← hy], by rw [← hy], ?_, by rw [← hy], by rw [← hy],
    hc.1, tB, sh, wf', sq', ?_⟩
  · intro i j hij
    rw [← hy]
    dsimp only
    rw [if_neg (by omega)]
  intro hlo k i h hki hi
  have hBv : ∀ c j, y.2.1.val c j = (K.tpqrt2 A0 D).2.1 c j := by intro c j; rw [← hy]
  have hTv : ∀ c < n, ∀ j < n, y.2.2.val c j = (K.tpqrt2 A0 D).2.2 c j := by
    intro c hc j hj
    rw [← hy]
    dsimp only
    rw [if_pos ⟨hc, hj⟩]
  have hTt : ∀ c < n, ∀ j < n, y.2.2.tri .upper false c j =
      Dense.tri ⟨n, n, (K.tpqrt2 A0 D).2.2⟩ .upper false c j := by
    intro c hc j hj
    unfold Dense.tri
    rw [hTv c hc j hj]
  have hAv : ∀ l < n, ∀ j < n, l ≤ j → y.1.val l j = (K.tpqrt2 A0 D).1 l j := by
    intro l hl j hj hlj
    rw [← hy]
    dsimp only
    rw [if_pos ⟨hlj, hj⟩]
  set r := D.rows with hr
  set V := stack n (fun i j => if i = j then (1 : R) else 0) (K.tpqrt2 A0 D).2.1 with hV
  let W : Ix → Nat → R := fun x c => if x.1 = k then (if x.2 = c then 1 else 0)
    else if n ≤ c then B.leftF x.2 (c - n) else 0
  have Wk : ∀ l < n, ∀ g : Nat → R, ∑ c ∈ range (n + r), W ⟨k, l⟩ c * g c = g l := by
    intro l hl g
    simp only [W, if_true, ite_mul, one_mul, zero_mul]
    rw [Finset.sum_ite_eq, if_pos (Finset.mem_range.2 (by omega))]
  have Wi : ∀ l, ∀ g : Nat → R, ∑ c ∈ range (n + r), W ⟨i, l⟩ c * g c =
      ∑ c ∈ range r, B.leftF l c * g (n + c) := by
    intro l g
    simp only [W, if_neg (Ne.symm hki)]
    rw [Finset.sum_range_add]
    rw [Finset.sum_eq_zero (fun c hc => by
      rw [if_neg (by have := Finset.mem_range.1 hc; omega), zero_mul]), zero_add]
    exact Finset.sum_congr rfl (fun c _ => by
      rw [if_pos (by omega), Nat.add_sub_cancel_left])
  have cases2 : ∀ {z : Ix}, z ∈ pairRows k i n h → (∃ l < n, z = ⟨k, l⟩) ∨ ∃ l < B.nRows, z = ⟨i, l⟩ := by
    rintro ⟨b, l⟩ hz
    rcases mem_pairRows.1 hz with ⟨h1, h2⟩ | ⟨h1, h2, h3⟩
    · simp only at h1 h2
      subst h1
      exact Or.inr ⟨l, by rw [← hi]; exact h2, rfl⟩
    · simp only at h1 h3
      subst h1
      exact Or.inl ⟨l, h3, rfl⟩
  have hW : ∀ c < n + r, ∀ d < n + r, ∑ x ∈ pairRows k i n h, W x c * W x d = if c = d then 1 else 0 := by
    intro c hc d hd
    rw [sum_pairRows hki, hi]
    simp only [W, if_true, if_neg (Ne.symm hki), ite_mul, one_mul, zero_mul]
    by_cases hcn : c < n
    · rw [Finset.sum_ite_eq' (range n), if_pos (Finset.mem_range.2 hcn)]
      rw [Finset.sum_eq_zero (fun l _ => by rw [if_neg (by omega)]), add_zero]
    · rw [Finset.sum_ite_eq' (range n), if_neg (by simpa using hcn), zero_add]
      simp only [if_pos (show n ≤ c by omega)]
      by_cases hdn : n ≤ d
      · simp only [if_pos hdn]
        rw [Do hlo (c - n) (by omega) (d - n) (by omega)]
        by_cases e : c = d
        · rw [if_pos (by omega), if_pos e]
        · rw [if_neg (by omega), if_neg e]
      · simp only [if_neg hdn, mul_zero, Finset.sum_const_zero]
        rw [if_neg (by omega)]
  have hY : ∀ x ∈ pairRows k i n h, ∀ c < n, pairV k i (x0.2.1) x c = ∑ b ∈ range (n + r), W x b * V b c := by
    intro x hx c hc
    rcases cases2 hx with ⟨l, hl, rfl⟩ | ⟨l, hl, rfl⟩
    · rw [Wk l hl]
      simp only [pairV, if_neg (Ne.symm hki), if_true, hV, stack, if_pos hl]
    · rw [Wi l]
      simp only [pairV, if_neg (Ne.symm hki)]
      rw [ent l hl c]
      refine Finset.sum_congr rfl (fun b _ => ?_)
      rw [hV, stack, if_neg (by omega), Nat.add_sub_cancel_left, hBv]
  have ho := hK.tpqrt_orth A0 D Dc.symm Dc.symm
  rw [Dc] at ho
  have hreflT : ∀ c j, reflector n V (y.2.2.tri .upper false) c j =
      reflector n V (Dense.tri ⟨n, n, (K.tpqrt2 A0 D).2.2⟩ .upper false) c j := by
    intro c j
    unfold reflector
    congr 1
    refine Finset.sum_congr rfl (fun p hp => ?_)
    congr 1
    exact Finset.sum_congr rfl (fun q hq => by
      rw [hTt p (Finset.mem_range.1 hp) q (Finset.mem_range.1 hq)])
  refine ⟨reflOrth_lift (V := V) ?_ hW hY, ?_⟩
  · intro c hc d hd
    simp only [hreflT]
    exact ho c hc d hd
  · intro s hs v hvk hvi z hz
    have fac := hK.tpqrt_factor A0 D Dc.symm Dc.symm
    rw [Dc] at fac
    have hA0t : ∀ l j, A0.tri .upper false l j = if l ≤ j ∧ j < n then a.val l j else 0 := by
      intro l j
      unfold Dense.tri
      by_cases e : l = j
      · subst e
        simp [hA0]
      · rw [if_neg e]
        dsimp only
        by_cases e' : l < j
        · rw [if_pos e']
        · rw [if_neg e', if_neg (by omega)]
    rw [refl_lift hW hY (x := v) (z := fun c => stack n (A0.tri .upper false) D.val c s) (by
      intro x hx
      rcases cases2 hx with ⟨l, hl, rfl⟩ | ⟨l, hl, rfl⟩
      · rw [Wk l hl, hvk l hl]
        simp only [stack, if_pos hl, hA0t]
        by_cases e : l ≤ s
        · rw [if_pos e, if_pos ⟨e, hs⟩]
        · rw [if_neg e, if_neg (by tauto)]
      · rw [Wi l, hvi l hl, De l hl s]
        refine Finset.sum_congr rfl (fun c _ => ?_)
        simp only [stack]
        rw [if_neg (by omega), Nat.add_sub_cancel_left]) z hz]
    have val : ∀ c < n + r, refl (range (n + r)) n V (tr (y.2.2.tri .upper false))
        (fun c => stack n (A0.tri .upper false) D.val c s) c =
        if c ≤ s then (K.tpqrt2 A0 D).1 c s else 0 := by
      intro c hc
      rw [refl_range hc]
      simp only [hreflT]
      exact fac c hc s hs
    rcases cases2 hz with ⟨l, hl, rfl⟩ | ⟨l, hl, rfl⟩
    · rw [Wk l hl (fun c => refl _ _ _ _ _ c), val l (by omega)]
      simp only [true_and]
      by_cases e : l ≤ s
      · rw [if_pos e, if_pos e, hAv l hl s hs e]
      · rw [if_neg e, if_neg e]
    · rw [Wi l (fun c => refl _ _ _ _ _ c)]
      rw [if_neg (fun e => hki e.1.symm)]
      refine Finset.sum_eq_zero (fun c hc => ?_)
      rw [val (n + c) (by have := Finset.mem_range.1 hc; omega), if_neg (by omega), mul_zero]

end Mat
end Verif
