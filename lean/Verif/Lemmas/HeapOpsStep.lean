import Verif.Lemmas.HeapOps

/-
One operation on the stored elements does what it does on values.
-/

namespace Verif

variable {R : Type}

open Finset

namespace Dense

theorem corner_val [Zero R] {A : Dense R} {m n i j : Nat} (hi : i < m) (hj : j < n) :
    (A.corner m n).val i j = A.val i j := if_pos ⟨hi, hj⟩

theorem corner_tri [Zero R] [One R] {A : Dense R} {m n i j : Nat} (hi : i < m) (hj : j < n)
    (u : Uplo) (b : Bool) : (A.corner m n).tri u b i j = A.tri u b i j := by
  unfold tri
  rw [corner_val hi hj]

theorem subst_congr {R : Type} [Field R] {T T' : Nat → Nat → R} {σ : Nat → Nat} {n : Nat}
    (hT : ∀ t < n, ∀ u < n, T (σ t) (σ u) = T' (σ t) (σ u)) (b : Nat → R) :
    ∀ t ≤ n, subst T σ t b = subst T' σ t b := by
  intro t
  induction t with
  | zero => intro _; rfl
  | succ t ih =>
    intro ht
    have ih' := ih (by omega)
    unfold subst
    simp only [ih']
    funext i
    by_cases hi : i = σ t
    · rw [if_pos hi, if_pos hi, hT t (by omega) t (by omega)]
      congr 2
      refine sum_congr rfl fun u hu => ?_
      rw [hT t (by omega) u (by have := mem_range.1 hu; omega)]
    · rw [if_neg hi, if_neg hi]

theorem solveOrder_lt {b : Bool} {n t : Nat} (h : t < n) : solveOrder b n t < n := by
  unfold solveOrder
  split <;> omega

end Dense

section
variable [Field R] [DecidableEq R] {objs : List DObj} {S : List Nat} {h : Heap R} {V : Nat → Dense R}

/-- The operation has the same effect on the heap as on values. -/
def Refines (K : QrKernels R) (objs : List DObj) (S : List Nat) (h : Heap R) (V : Nat → Dense R)
    (op : ArithOp R) : Prop :=
  ∀ V', valStep K V op = .ok V' → ∃ h', Mem.arith K ⟨h, objs⟩ op = .ok h' ∧
    h.Same (fun b k => ∃ o ∈ op.targets, ∃ d, objs[o]? = some d ∧ d.Cell b k) h' ∧
    MemRep objs S h' V'

omit [Field R] [DecidableEq R] in
theorem obj_eq {o : Nat} {d : DObj} (hd : objs[o]? = some d) :
    Mem.obj (⟨h, objs⟩ : Mem R) o = .ok d := by simp only [Mem.obj, hd]

omit [DecidableEq R] in
theorem refines_loop (hR : MemRep objs S h V) (hS : MemSep objs S) {o : Nat} (ho : o ∈ S) {d : DObj}
    (hd : objs[o]? = some d) (f : Heap R → Nat → Nat → Except Err R) {D : Dense R}
    (h1 : D.rows = d.rows) (h2 : D.cols = d.cols)
    (hf : ∀ i < d.rows, ∀ j < d.cols, ∀ h', h.Same (fun b' k => d.Cell b' k ∧ k ≠ d.loc i j) h' →
      f h' i j = .ok (D.val i j)) :
    ∃ h', loop d.rows (fun i h => loop d.cols (fun j h => do
        let x ← f h i j
        d.write h i j x) h) h = .ok h' ∧ h.Same d.Cell h' ∧ MemRep objs S h' (setVal V o D) := by
  obtain ⟨e, he, hok, hr, hc, hv⟩ := hR o ho
  obtain rfl : e = d := Option.some.inj (he.symm.trans hd)
  obtain ⟨b, hb, -⟩ := id hok
  obtain ⟨h', hl, hs, hval⟩ := DObj.entryLoop hb (DObj.readable_of (Or.inl hok)) hok.stride_le f D.val hf
  refine ⟨h', hl, hs, hR.update hS ho hd hs h1 h2 ?_⟩
  intro b' hb' i hi j hj
  obtain rfl : b = b' := Option.some.inj (hb.symm.trans hb')
  exact hval i hi j hj

omit [DecidableEq R] in
/-- Reading an object of `S` while another loop runs. -/
theorem MemRep.read_during (hR : MemRep objs S h V) (hS : MemSep objs S) {o a : Nat} (ho : o ∈ S) (ha : a ∈ S)
    {d e : DObj} (hd : objs[o]? = some d) (he : objs[a]? = some e) {i j i' j' : Nat} {h' : Heap R}
    (hi : i' < e.rows) (hj : j' < e.cols) (hsame : a = o → i' = i ∧ j' = j)
    (hs : h.Same (fun b' k => d.Cell b' k ∧ k ≠ d.loc i j) h') :
    e.read h' i' j' = .ok ((V a).val i' j') := by
  obtain ⟨e', he', hok, hr, hc, hv⟩ := hR a ha
  obtain rfl : e' = e := Option.some.inj (he'.symm.trans he)
  obtain ⟨b, hb, hrd⟩ := (hok.ext hs.ext).read hi hj
  rw [hrd, hv]
  simp only [DObj.value, hi, hj, and_self, if_true, hb, Option.getD_some]
  congr 1
  refine hs.2.2 b _ ?_
  rintro ⟨hcell, hne⟩
  by_cases hao : a = o
  · obtain ⟨rfl, rfl⟩ := hsame hao
    subst hao
    obtain rfl : e' = d := Option.some.inj (he.symm.trans hd)
    exact hne rfl
  · exact hS o ho a ha (fun h => hao h.symm) d e' hd he b _ hcell ⟨hb, i', hi, j', hj, rfl⟩

theorem refines_fill (K : QrKernels R) (hR : MemRep objs S h V) (hS : MemSep objs S) {o : Nat} (ho : o ∈ S)
    (v : R) : Refines K objs S h V (.fill o v) := by
  intro V' hV
  cases Except.ok.inj hV
  obtain ⟨d, hd, d1, d2, -⟩ := hR.dims ho
  obtain ⟨h', e1, e2, e3⟩ := refines_loop hR hS ho hd (fun _ _ _ => .ok v) (D := (V o).fill v) d1 d2
    (fun _ _ _ _ _ _ => rfl)
  refine ⟨h', ?_, e2.mono (fun b k hk => ⟨o, by simp [ArithOp.targets], d, hd, hk⟩), e3⟩
  simp only [Mem.arith, obj_eq hd, except_bind_ok]
  exact e1

theorem refines_scale (K : QrKernels R) (hR : MemRep objs S h V) (hS : MemSep objs S) {o : Nat} (ho : o ∈ S)
    (c : R) : Refines K objs S h V (.scale o c) := by
  intro V' hV
  cases Except.ok.inj hV
  obtain ⟨d, hd, d1, d2, -⟩ := hR.dims ho
  obtain ⟨h', e1, e2, e3⟩ := refines_loop hR hS ho hd (fun h i j => do
    let x ← d.read h i j
    .ok (x * c)) (D := (V o).scale c) d1 d2 (by
      intro i hi j hj h' hs
      rw [hR.read_during hS ho ho hd hd hi hj (fun _ => ⟨rfl, rfl⟩) hs]
      rfl)
  refine ⟨h', ?_, e2.mono (fun b k hk => ⟨o, by simp [ArithOp.targets], d, hd, hk⟩), e3⟩
  simp only [Mem.arith, obj_eq hd, except_bind_ok]
  rw [← e1]
  unfold DObj.scale
  congr 1; funext i h; congr 1; funext j h
  cases d.read h i j <;> rfl

theorem refines_copyTo (K : QrKernels R) (hR : MemRep objs S h V) (hS : MemSep objs S) {s t rs cs : Nat}
    (hs : s ∈ S) (ht : t ∈ S) : Refines K objs S h V (.copyTo s t rs cs) := by
  intro V' hV
  simp only [valStep] at hV
  split at hV
  case isFalse => cases hV
  case isTrue hc =>
  cases Except.ok.inj hV
  obtain ⟨d, hd, d1, d2, -⟩ := hR.dims hs
  obtain ⟨e, he, c1, c2, -⟩ := hR.dims ht
  rw [d1, d2, c1, c2] at hc
  obtain ⟨h', e1, e2, e3⟩ := refines_loop hR hS ht he (fun h i j => d.read h (rs + i) (cs + j))
    (D := (V s).sub rs cs (V t).rows (V t).cols) c1 c2 (by
      intro i hi j hj h' hsm
      refine hR.read_during hS ht hs he hd (by omega) (by omega) ?_ hsm
      rintro rfl
      obtain rfl : d = e := Option.some.inj (hd.symm.trans he)
      omega)
  refine ⟨h', ?_, e2.mono (fun b k hk => ⟨t, by simp [ArithOp.targets], e, he, hk⟩), e3⟩
  simp only [Mem.arith, obj_eq hd, obj_eq he, except_bind_ok, DObj.copyTo, hc.1, hc.2, assertM,
    decide_true, if_true]
  exact e1

theorem refines_add (K : QrKernels R) (hR : MemRep objs S h V) (hS : MemSep objs S) {o a : Nat}
    (ho : o ∈ S) (ha : a ∈ S) : Refines K objs S h V (.add o a) := by
  intro V' hV
  simp only [valStep, Dense.addAssign, except_bind_eq_ok, assertM_eq_ok, decide_eq_true_eq] at hV
  obtain ⟨D, ⟨_, hc, hD⟩, hV⟩ := hV
  cases Except.ok.inj hV
  cases Except.ok.inj hD
  obtain ⟨d, hd, d1, d2, d3, d4, -⟩ := hR.dims ho
  obtain ⟨e, he, c1, c2, -⟩ := hR.dims ha
  rw [d1, d2, c1, c2] at hc
  obtain ⟨h', e1, e2, e3⟩ := refines_loop hR hS ho hd (fun h i j => do
      let x ← d.read h i j
      let y ← e.read h i j
      .ok (x + y))
    (D := ⟨(V o).rows, (V o).cols, fun i j => (V o).val i j + (V a).val i j⟩) d1 d2 (by
      intro i hi j hj h' hsm
      rw [hR.read_during hS ho ho hd hd hi hj (fun _ => ⟨rfl, rfl⟩) hsm,
        hR.read_during hS ho ha hd he (by omega) (by omega) (fun _ => ⟨rfl, rfl⟩) hsm]
      rfl)
  refine ⟨h', ?_, e2.mono (fun b k hk => ⟨o, by simp [ArithOp.targets], d, hd, hk⟩), e3⟩
  simp only [Mem.arith, obj_eq hd, obj_eq he, except_bind_ok]
  rw [← e1]
  unfold DObj.addAssign
  congr 1; funext i h; congr 1; funext j h
  cases d.read h i j <;> [rfl; skip]
  cases e.read h i j <;> rfl

/-! ### calls of BLAS and LAPACK -/

omit [Field R] [DecidableEq R] in
theorem contract_ok {ins outs : List DObj} (h1 : ∀ a ∈ ins ++ outs, 0 < a.stride ∧ a.cols ≤ a.stride)
    (h2 : ∀ a ∈ outs, ∀ b ∈ ins, a.shares b = false)
    (h3 : outs.Pairwise (fun a b => a.shares b = false)) : DObj.contract ins outs = .ok () :=
  if_pos ⟨h1, h2, h3⟩

theorem refines_gemm (K : QrKernels R) (hR : MemRep objs S h V) (hS : MemSep objs S) {a b c : Nat}
    (ha : a ∈ S) (hb : b ∈ S) (hc : c ∈ S) (hca : c ≠ a) (hcb : c ≠ b) (α β : R) (ta tb : Bool) :
    Refines K objs S h V (.gemm a b c α β ta tb) := by
  intro V' hV
  simp only [valStep, Dense.gemm, except_bind_eq_ok, assertM_eq_ok, decide_eq_true_eq] at hV
  obtain ⟨D, ⟨_, g1, _, g2, _, g3, hD⟩, hV⟩ := hV
  cases Except.ok.inj hV
  cases Except.ok.inj hD
  obtain ⟨x, hx, x1, x2, -, -, x3, x4, x5, x6⟩ := hR.dims ha
  obtain ⟨y, hy, y1, y2, -, -, y3, y4, y5, y6⟩ := hR.dims hb
  obtain ⟨z, hz, z1, z2, -, -, z3, z4, z5, z6⟩ := hR.dims hc
  rw [x1, x2, z1] at g1
  rw [x1, x2, y1, y2] at g2
  rw [y1, y2, z2] at g3
  have ea : (if ta then x.arg (if ta then x.rows else x.cols) z.rows x.stride
      else x.arg z.rows (if ta then x.rows else x.cols) x.stride) = x.arg x.rows x.cols x.stride := by
    cases ta <;> simp_all
  have eb : (if tb then y.arg z.cols (if ta then x.rows else x.cols) y.stride
      else y.arg (if ta then x.rows else x.cols) z.cols y.stride) = y.arg y.rows y.cols y.stride := by
    rw [g2]
    cases tb <;> simp_all
  have hct : DObj.contract [x.arg x.rows x.cols x.stride, y.arg y.rows y.cols y.stride]
      [z.arg z.rows z.cols z.stride] = .ok () := by
    refine contract_ok ?_ ?_ (List.pairwise_singleton _ _)
    · intro u hu
      simp only [List.cons_append, List.nil_append, List.mem_cons, List.not_mem_nil, or_false] at hu
      rcases hu with rfl | rfl | rfl
      · exact ⟨x3, x4⟩
      · exact ⟨y3, y4⟩
      · exact ⟨z3, z4⟩
    · intro u hu w hw
      simp only [List.mem_cons, List.not_mem_nil, or_false] at hu hw
      subst hu
      rcases hw with rfl | rfl
      · exact hS.shares hc ha hca hz hx z5 (Nat.le_refl _) (Nat.le_refl _) (Nat.le_refl _) (Nat.le_refl _)
      · exact hS.shares hc hb hcb hz hy z5 (Nat.le_refl _) (Nat.le_refl _) (Nat.le_refl _) (Nat.le_refl _)
  have fx := hR.fetch ha hx (Nat.le_refl x.rows) (Nat.le_refl x.cols)
  have fy := hR.fetch hb hy (Nat.le_refl y.rows) (Nat.le_refl y.cols)
  have fz := hR.fetch hc hz (Nat.le_refl z.rows) (Nat.le_refl z.cols)
  rw [x6] at fx
  rw [y6] at fy
  rw [z6] at fz
  have hg : Dense.gemm (V a) (V b) (V c) α β ta tb = .ok ⟨(V c).rows, (V c).cols, fun i j =>
      α * (∑ l ∈ range (if ta then (V a).rows else (V a).cols), (V a).opVal ta i l * (V b).opVal tb l j)
        + β * (V c).val i j⟩ := by
    unfold Dense.gemm
    simp only [x1, x2, y1, y2, z1, z2, g1, g2, g3, assertM, decide_true, if_true, except_bind_ok]
  obtain ⟨h', s1, s2, s3⟩ := hR.store hS hc hz (Nat.le_refl z.rows) (Nat.le_refl z.cols)
    (fun i j => α * (∑ l ∈ range (if ta then (V a).rows else (V a).cols),
      (V a).opVal ta i l * (V b).opVal tb l j) + β * (V c).val i j)
    (D := ⟨(V c).rows, (V c).cols, fun i j =>
      α * (∑ l ∈ range (if ta then (V a).rows else (V a).cols), (V a).opVal ta i l * (V b).opVal tb l j)
        + β * (V c).val i j⟩) z1 z2 (fun i hi j hj => (if_pos ⟨hi, hj⟩).symm)
  refine ⟨h', ?_, s2.mono (fun b k hk => ⟨c, by simp [ArithOp.targets], z, hz, hk⟩), s3⟩
  simp only [Mem.arith, obj_eq hx, obj_eq hy, obj_eq hz, except_bind_ok, DObj.gemm]
  rw [ea, eb]
  simp only [g1, g2, g3, assertM, decide_true, if_true, except_bind_ok, hct, fx, fy, fz, hg]
  exact s1

omit [DecidableEq R] in
theorem MemRep.storeFull (hR : MemRep objs S h V) (hS : MemSep objs S) {o : Nat} (ho : o ∈ S) {d : DObj}
    (hd : objs[o]? = some d) {D : Dense R} (h1 : D.rows = d.rows) (h2 : D.cols = d.cols)
    {v : Nat → Nat → R} (hv : ∀ i < d.rows, ∀ j < d.cols, D.val i j = v i j) :
    ∃ h', (d.arg d.rows d.cols d.stride).store h v = .ok h' ∧ h.Same d.Cell h' ∧
      MemRep objs S h' (setVal V o D) :=
  hR.store hS ho hd (Nat.le_refl _) (Nat.le_refl _) v h1 h2
    (fun i hi j hj => (hv i hi j hj).trans (if_pos ⟨hi, hj⟩).symm)

omit [DecidableEq R] in
theorem MemRep.fetchFull (hR : MemRep objs S h V) {o : Nat} (ho : o ∈ S) {d : DObj}
    (hd : objs[o]? = some d) : (d.arg d.rows d.cols d.stride).fetch h = .ok (V o) := by
  obtain ⟨e, he, -, -, -, -, -, -, -, h6⟩ := hR.dims ho
  obtain rfl : e = d := Option.some.inj (he.symm.trans hd)
  rw [hR.fetch ho hd (Nat.le_refl _) (Nat.le_refl _), h6]

theorem refines_trmm (K : QrKernels R) (hR : MemRep objs S h V) (hS : MemSep objs S) {a b : Nat}
    (ha : a ∈ S) (hb : b ∈ S) (hba : b ≠ a) (side : Side) (uplo : Uplo) (tr unit : Bool) (α : R) :
    Refines K objs S h V (.trmm a b side uplo tr unit α) := by
  intro V' hV
  simp only [valStep, except_bind_eq_ok] at hV
  obtain ⟨D, hD, hV⟩ := hV
  cases Except.ok.inj hV
  obtain ⟨x, hx, x1, x2, -, -, x3, x4, x5, -⟩ := hR.dims ha
  obtain ⟨y, hy, y1, y2, -, -, y3, y4, y5, -⟩ := hR.dims hb
  have hD' := hD
  simp only [Dense.trmm, except_bind_eq_ok, assertM_eq_ok, decide_eq_true_eq] at hD'
  obtain ⟨_, g1, _, g2, hD'⟩ := hD'
  have r1 : D.rows = y.rows := by rw [← Except.ok.inj hD', y1]
  have r2 : D.cols = y.cols := by rw [← Except.ok.inj hD', y2]
  rw [x1, x2] at g1
  rw [x1, y1, y2] at g2
  have hct : DObj.contract [x.arg x.rows x.cols x.stride] [y.arg y.rows y.cols y.stride] = .ok () := by
    refine contract_ok ?_ ?_ (List.pairwise_singleton _ _)
    · intro u hu
      simp only [List.cons_append, List.nil_append, List.mem_cons, List.not_mem_nil, or_false] at hu
      rcases hu with rfl | rfl
      · exact ⟨x3, x4⟩
      · exact ⟨y3, y4⟩
    · intro u hu w hw
      simp only [List.mem_cons, List.not_mem_nil, or_false] at hu hw
      subst hu
      subst hw
      exact hS.shares hb ha hba hy hx y5 (Nat.le_refl _) (Nat.le_refl _) (Nat.le_refl _) (Nat.le_refl _)
  obtain ⟨h', s1, s2, s3⟩ := hR.storeFull hS hb hy r1 r2 (v := D.val) (fun _ _ _ _ => rfl)
  refine ⟨h', ?_, s2.mono (fun _ k hk => ⟨b, by simp [ArithOp.targets], y, hy, hk⟩), s3⟩
  simp only [Mem.arith, obj_eq hx, obj_eq hy, except_bind_ok, DObj.trmm]
  have ea : x.arg (side.pick y.rows y.cols) (side.pick y.rows y.cols) x.stride
      = x.arg x.rows x.cols x.stride := by rw [← g2, ← g1]
  rw [ea]
  have q1 : assertM (decide (x.rows = x.cols)) = .ok () := assertM_eq_ok.2 (decide_eq_true g1)
  have q2 : assertM (decide (x.rows = side.pick y.rows y.cols)) = .ok () :=
    assertM_eq_ok.2 (decide_eq_true g2)
  simp only [q1, q2, except_bind_ok, hct, hR.fetchFull ha hx, hR.fetchFull hb hy, hD]
  exact s1

theorem refines_trsm (K : QrKernels R) (hR : MemRep objs S h V) (hS : MemSep objs S) {a b : Nat}
    (ha : a ∈ S) (hb : b ∈ S) (hba : b ≠ a) (uplo : Uplo) (side : Side) :
    Refines K objs S h V (.trsm a b uplo side) := by
  intro V' hV
  simp only [valStep, except_bind_eq_ok] at hV
  obtain ⟨D, hD, hV⟩ := hV
  cases Except.ok.inj hV
  obtain ⟨x, hx, x1, x2, -, -, x3, x4, x5, -⟩ := hR.dims ha
  obtain ⟨y, hy, y1, y2, p1, p2, y3, y4, y5, -⟩ := hR.dims hb
  have hne : ¬ ((V b).rows = 0 ∨ (V b).cols = 0) := by omega
  simp only [Dense.trsm] at hD
  rw [if_neg hne] at hD
  split at hD
  case isFalse => cases hD
  case isTrue hc =>
  obtain ⟨c1, c2, c3⟩ := hc
  rw [y1, y2] at c1 c2 c3
  rw [x1] at c1
  rw [x2] at c2
  generalize hn : side.pick y.rows y.cols = n at c1 c2 c3
  have htri : ∀ i < n, ∀ j < n, ∀ u, ((V a).corner n n).tri uplo u i j = (V a).tri uplo u i j :=
    fun i hi j hj u => Dense.corner_tri hi hj uplo u
  have hall : (List.range n).all (fun i => decide (((V a).corner n n).tri uplo
      (decide (uplo = .lower)) i i ≠ 0)) = true := by
    rw [List.all_eq_true] at c3 ⊢
    intro i hi
    rw [htri i (List.mem_range.1 hi) i (List.mem_range.1 hi)]
    exact c3 i hi
  have hct : DObj.contract [x.arg n n x.stride] [y.arg y.rows y.cols y.stride] = .ok () := by
    refine contract_ok ?_ ?_ (List.pairwise_singleton _ _)
    · intro u hu
      simp only [List.cons_append, List.nil_append, List.mem_cons, List.not_mem_nil, or_false] at hu
      rcases hu with rfl | rfl
      · exact ⟨x3, Nat.le_trans c2 x4⟩
      · exact ⟨y3, y4⟩
    · intro u hu w hw
      simp only [List.mem_cons, List.not_mem_nil, or_false] at hu hw
      subst hu
      subst hw
      exact hS.shares hb ha hba hy hx y5 (Nat.le_refl _) (Nat.le_refl _) c1 c2
  have fx := hR.fetch ha hx c1 c2
  obtain ⟨E, hE, hE1⟩ : ∃ E, Dense.trsm uplo side ((V a).corner n n) (V b) = .ok E ∧
      ∀ i < y.rows, ∀ j < y.cols, D.val i j = E.val i j := by
    refine ⟨_, by
      simp only [Dense.trsm]
      rw [if_neg hne, if_pos (by rw [y1, y2, hn]; exact ⟨Nat.le_refl _, Nat.le_refl _, hall⟩)], ?_⟩
    intro i hi j hj
    rw [← Except.ok.inj hD]
    simp only [y1, y2, hn]
    cases side with
    | left =>
      simp only [Side.pick]
      rw [Dense.subst_congr (fun t ht u hu => (htri _ (Dense.solveOrder_lt ht) _
        (Dense.solveOrder_lt hu) _).symm) _ n (Nat.le_refl n)]
    | right =>
      simp only [Side.pick]
      rw [Dense.subst_congr (T' := fun p q => ((V a).corner n n).tri uplo (decide (uplo = .lower)) q p)
        (fun t ht u hu => (htri _ (Dense.solveOrder_lt hu) _
        (Dense.solveOrder_lt ht) _).symm) _ n (Nat.le_refl n)]
  have r1 : D.rows = y.rows := by rw [← Except.ok.inj hD, y1]
  have r2 : D.cols = y.cols := by rw [← Except.ok.inj hD, y2]
  obtain ⟨h', s1, s2, s3⟩ := hR.storeFull hS hb hy r1 r2 (v := E.val) hE1
  refine ⟨h', ?_, s2.mono (fun _ k hk => ⟨b, by simp [ArithOp.targets], y, hy, hk⟩), s3⟩
  simp only [Mem.arith, obj_eq hx, obj_eq hy, except_bind_ok, DObj.trsm, hn, hct, fx,
    hR.fetchFull hb hy, hE]
  exact s1

omit [Field R] [DecidableEq R] in
theorem setVal_ne [Zero R] {V : Nat → Dense R} {o x : Nat} (hx : x ≠ o) (D : Dense R) :
    setVal V o D x = V x := if_neg hx

theorem refines_larfb (K : QrKernels R) (hR : MemRep objs S h V) (hS : MemSep objs S) {v t c : Nat}
    (hv : v ∈ S) (ht : t ∈ S) (hc : c ∈ S) (hcv : c ≠ v) (hct : c ≠ t) (tr : Bool) :
    Refines K objs S h V (.larfb v t c tr) := by
  intro V' hV
  simp only [valStep, except_bind_eq_ok] at hV
  obtain ⟨D, hD, hV⟩ := hV
  cases Except.ok.inj hV
  obtain ⟨x, hx, x1, x2, -, -, x3, x4, x5, -⟩ := hR.dims hv
  obtain ⟨y, hy, y1, y2, -, -, y3, y4, y5, -⟩ := hR.dims ht
  obtain ⟨z, hz, z1, z2, -, -, z3, z4, z5, -⟩ := hR.dims hc
  unfold Dense.larfb at hD
  split at hD
  case isFalse => cases hD
  case isTrue g =>
  rw [x1, x2, y1, y2, z1] at g
  obtain ⟨g1, g2, g3, g4⟩ := g
  have hcon : DObj.contract [x.arg z.rows y.cols x.stride, y.arg y.cols y.cols y.stride]
      [z.arg z.rows z.cols z.stride] = .ok () := by
    refine contract_ok ?_ ?_ (List.pairwise_singleton _ _)
    · intro u hu
      simp only [List.cons_append, List.nil_append, List.mem_cons, List.not_mem_nil, or_false] at hu
      rcases hu with rfl | rfl | rfl
      · exact ⟨x3, Nat.le_trans g2 x4⟩
      · exact ⟨y3, y4⟩
      · exact ⟨z3, z4⟩
    · intro u hu w hw
      simp only [List.mem_cons, List.not_mem_nil, or_false] at hu hw
      subst hu
      rcases hw with rfl | rfl
      · exact hS.shares hc hv hcv hz hx z5 (Nat.le_refl _) (Nat.le_refl _) g1 g2
      · exact hS.shares hc ht hct hz hy z5 (Nat.le_refl _) (Nat.le_refl _) g3 (Nat.le_refl _)
  obtain ⟨E, hE, hE1⟩ : ∃ E, Dense.larfb ((V v).corner z.rows y.cols) ((V t).corner y.cols y.cols) (V c) tr
      = .ok E ∧ ∀ i < z.rows, ∀ j < z.cols, D.val i j = E.val i j := by
    refine ⟨_, by
      unfold Dense.larfb
      rw [if_pos (by rw [z1]; exact ⟨Nat.le_refl _, Nat.le_refl _, Nat.le_refl _, g4⟩)], ?_⟩
    intro i hi j hj
    rw [← Except.ok.inj hD]
    simp only [y2, z1]
    change _ = _ - ∑ a ∈ range y.cols, _ * ∑ b ∈ range y.cols, _
    congr 1
    refine sum_congr rfl fun a ha => ?_
    have ha' := mem_range.1 ha
    rw [Dense.corner_tri hi ha']
    congr 1
    refine sum_congr rfl fun b hb => ?_
    have hb' := mem_range.1 hb
    rw [Dense.corner_tri ha' hb', Dense.corner_tri hb' ha']
    congr 1
    refine sum_congr rfl fun l hl => ?_
    rw [Dense.corner_tri (mem_range.1 hl) hb']
  have r1 : D.rows = z.rows := by rw [← Except.ok.inj hD, z1]
  have r2 : D.cols = z.cols := by rw [← Except.ok.inj hD, z2]
  obtain ⟨h', s1, s2, s3⟩ := hR.storeFull hS hc hz r1 r2 (v := E.val) hE1
  refine ⟨h', ?_, s2.mono (fun _ k hk => ⟨c, by simp [ArithOp.targets], z, hz, hk⟩), s3⟩
  simp only [Mem.arith, obj_eq hx, obj_eq hy, obj_eq hz, except_bind_ok, DObj.larfb, hcon,
    hR.fetch hv hx g1 g2, hR.fetch ht hy g3 (Nat.le_refl y.cols), hR.fetchFull hc hz, hE]
  exact s1

theorem refines_geqrt (K : QrKernels R) (hR : MemRep objs S h V) (hS : MemSep objs S) {a t : Nat}
    (ha : a ∈ S) (ht : t ∈ S) (hat : a ≠ t) : Refines K objs S h V (.geqrt a t) := by
  intro V' hV
  simp only [valStep, except_bind_eq_ok] at hV
  obtain ⟨D, hD, hV⟩ := hV
  cases Except.ok.inj hV
  obtain ⟨x, hx, x1, x2, -, -, x3, x4, x5, -⟩ := hR.dims ha
  obtain ⟨y, hy, y1, y2, -, -, y3, y4, y5, -⟩ := hR.dims ht
  have hD' := hD
  simp only [Dense.geqrt, except_bind_eq_ok, assertM_eq_ok, decide_eq_true_eq] at hD'
  obtain ⟨_, g1, _, g2, hD'⟩ := hD'
  split at hD'
  case isFalse => cases hD'
  case isTrue g =>
  rw [x2, y1] at g1
  rw [x2, y2] at g2
  have d1 : D.1.rows = x.rows := by rw [← Except.ok.inj hD', ← x1]
  have d2 : D.1.cols = x.cols := by rw [← Except.ok.inj hD', ← x2]
  have d3 : D.2.rows = y.rows := by rw [← Except.ok.inj hD', g1, ← x2]
  have d4 : D.2.cols = y.cols := by rw [← Except.ok.inj hD', g2, ← x2]
  have hcon : DObj.contract [] [x.arg x.rows x.cols x.stride, y.arg y.rows y.cols y.stride] = .ok () := by
    refine contract_ok ?_ (fun _ _ _ hb => (nomatch hb)) ?_
    · intro u hu
      simp only [List.nil_append, List.mem_cons, List.not_mem_nil, or_false] at hu
      rcases hu with rfl | rfl
      · exact ⟨x3, x4⟩
      · exact ⟨y3, y4⟩
    · rw [List.pairwise_pair]
      exact hS.shares ha ht hat hx hy x5 (Nat.le_refl _) (Nat.le_refl _) (Nat.le_refl _) (Nat.le_refl _)
  obtain ⟨h1, s1, s2, s3⟩ := hR.storeFull hS ha hx d1 d2 (v := D.1.val) (fun _ _ _ _ => rfl)
  obtain ⟨h2, u1, u2, u3⟩ := s3.storeFull hS ht hy d3 d4 (v := D.2.val) (fun _ _ _ _ => rfl)
  refine ⟨h2, ?_, Heap.Same.trans
    (s2.mono (fun _ k hk => ⟨a, by simp [ArithOp.targets], x, hx, hk⟩))
    (u2.mono (fun _ k hk => ⟨t, by simp [ArithOp.targets], y, hy, hk⟩)), u3⟩
  have q1 : assertM (decide (y.rows = x.cols)) = .ok () := assertM_eq_ok.2 (decide_eq_true g1)
  have q2 : assertM (decide (y.cols = x.cols)) = .ok () := assertM_eq_ok.2 (decide_eq_true g2)
  have et : y.arg x.cols x.cols y.stride = y.arg y.rows y.cols y.stride := by rw [g1, g2]
  simp only [Mem.arith, obj_eq hx, obj_eq hy, except_bind_ok, DObj.geqrt, q1, q2]
  rw [et]
  simp only [hcon, except_bind_ok, hR.fetchFull ha hx, hR.fetchFull ht hy, hD, s1]
  exact u1

theorem refines_tpqrt (K : QrKernels R) (hR : MemRep objs S h V) (hS : MemSep objs S) {a b t : Nat}
    (ha : a ∈ S) (hb : b ∈ S) (ht : t ∈ S) (hab : a ≠ b) (hat : a ≠ t) (hbt : b ≠ t) :
    Refines K objs S h V (.tpqrt a b t) := by
  intro V' hV
  simp only [valStep, except_bind_eq_ok] at hV
  obtain ⟨D, hD, hV⟩ := hV
  cases Except.ok.inj hV
  obtain ⟨x, hx, x1, x2, -, -, x3, x4, x5, -⟩ := hR.dims ha
  obtain ⟨y, hy, y1, y2, -, -, y3, y4, y5, -⟩ := hR.dims hb
  obtain ⟨z, hz, z1, z2, -, -, z3, z4, z5, -⟩ := hR.dims ht
  simp only [Dense.tpqrt] at hD
  split at hD
  case isFalse => cases hD
  case isTrue g =>
  rw [x1, x2, y2, z1, z2] at g
  obtain ⟨g1, g2, g3, g4⟩ := g
  rw [y2] at hD
  have hcon : DObj.contract [] [x.arg y.cols y.cols x.stride, y.arg y.rows y.cols y.stride,
      z.arg y.cols y.cols z.stride] = .ok () := by
    refine contract_ok ?_ (fun _ _ _ hb => (nomatch hb)) ?_
    · intro u hu
      simp only [List.nil_append, List.mem_cons, List.not_mem_nil, or_false] at hu
      rcases hu with rfl | rfl | rfl
      · exact ⟨x3, Nat.le_trans g2 x4⟩
      · exact ⟨y3, y4⟩
      · exact ⟨z3, Nat.le_trans g4 z4⟩
    · refine List.Pairwise.cons ?_ (List.pairwise_pair.2 ?_)
      · intro u hu
        simp only [List.mem_cons, List.not_mem_nil, or_false] at hu
        rcases hu with rfl | rfl
        · exact hS.shares ha hb hab hx hy x5 g1 g2 (Nat.le_refl _) (Nat.le_refl _)
        · exact hS.shares ha ht hat hx hz x5 g1 g2 g3 g4
      · exact hS.shares hb ht hbt hy hz y5 (Nat.le_refl _) (Nat.le_refl _) g3 g4
  have hmask : (fun i j => if i ≤ j ∧ j < y.cols then ((V a).corner y.cols y.cols).val i j else 0)
      = fun i j => if i ≤ j ∧ j < y.cols then (V a).val i j else 0 := by
    funext i j
    by_cases hc : i ≤ j ∧ j < y.cols
    · rw [if_pos hc, if_pos hc, Dense.corner_val (by omega) hc.2]
    · rw [if_neg hc, if_neg hc]
  generalize hX : K.tpqrt2 ⟨y.cols, y.cols, fun i j => if i ≤ j ∧ j < y.cols then (V a).val i j else 0⟩
    (V b) = X at hD
  have hE : Dense.tpqrt K ((V a).corner y.cols y.cols) (V b) ((V t).corner y.cols y.cols) =
      .ok (⟨y.cols, y.cols, fun i j => if i ≤ j ∧ j < y.cols then X.1 i j
          else ((V a).corner y.cols y.cols).val i j⟩, ⟨y.rows, y.cols, X.2.1⟩,
        ⟨y.cols, y.cols, fun i j => if i < y.cols ∧ j < y.cols then X.2.2 i j
          else ((V t).corner y.cols y.cols).val i j⟩) := by
    simp only [Dense.tpqrt]
    rw [if_pos (by rw [y2]; exact ⟨Nat.le_refl _, Nat.le_refl _, Nat.le_refl _, Nat.le_refl _⟩), y2, hmask,
      hX, y1]
    rfl
  cases Except.ok.inj hD
  obtain ⟨h1, s1, s2, s3⟩ := hR.store hS ha hx g1 g2
    (fun i j => if i ≤ j ∧ j < y.cols then X.1 i j else ((V a).corner y.cols y.cols).val i j)
    (D := ⟨(V a).rows, (V a).cols, fun i j => if i ≤ j ∧ j < y.cols then X.1 i j else (V a).val i j⟩)
    x1 x2 (by
      intro i hi j hj
      simp only
      by_cases hc : i < y.cols ∧ j < y.cols
      · rw [if_pos hc, Dense.corner_val hc.1 hc.2]
      · rw [if_neg hc, if_neg (by omega)])
  obtain ⟨h2, u1, u2, u3⟩ := s3.storeFull hS hb hy (D := ⟨(V b).rows, y.cols, X.2.1⟩) y1 rfl
    (v := X.2.1) (fun _ _ _ _ => rfl)
  obtain ⟨h3, w1, w2, w3⟩ := u3.store hS ht hz g3 g4
    (fun i j => if i < y.cols ∧ j < y.cols then X.2.2 i j else ((V t).corner y.cols y.cols).val i j)
    (D := ⟨(V t).rows, (V t).cols, fun i j => if i < y.cols ∧ j < y.cols then X.2.2 i j else (V t).val i j⟩)
    z1 z2 (by
      intro i hi j hj
      rw [setVal_ne (fun h => hbt h.symm), setVal_ne (fun h => hat h.symm)]
      simp only
      by_cases hc : i < y.cols ∧ j < y.cols
      · rw [if_pos hc, if_pos hc, if_pos hc]
      · rw [if_neg hc, if_neg hc])
  refine ⟨h3, ?_, Heap.Same.trans (Heap.Same.trans
    (s2.mono (fun _ k hk => ⟨a, by simp [ArithOp.targets], x, hx, hk⟩))
    (u2.mono (fun _ k hk => ⟨b, by simp [ArithOp.targets], y, hy, hk⟩)))
    (w2.mono (fun _ k hk => ⟨t, by simp [ArithOp.targets], z, hz, hk⟩)), w3⟩
  simp only [Mem.arith, obj_eq hx, obj_eq hy, obj_eq hz, except_bind_ok, DObj.tpqrt, hcon,
    hR.fetch ha hx g1 g2, hR.fetchFull hb hy, hR.fetch ht hz g3 g4, hE, s1, u1]
  exact w1

theorem refines_tpmqrt (K : QrKernels R) (hR : MemRep objs S h V) (hS : MemSep objs S) {v t a b : Nat}
    (hv : v ∈ S) (ht : t ∈ S) (ha : a ∈ S) (hb : b ∈ S) (hav : a ≠ v) (hat : a ≠ t) (hbv : b ≠ v)
    (hbt : b ≠ t) (hab : a ≠ b) (tr : Bool) : Refines K objs S h V (.tpmqrt v t a b tr) := by
  intro V' hV
  simp only [valStep, except_bind_eq_ok] at hV
  obtain ⟨D, hD, hV⟩ := hV
  cases Except.ok.inj hV
  obtain ⟨x, hx, x1, x2, -, -, x3, x4, x5, -⟩ := hR.dims hv
  obtain ⟨y, hy, y1, y2, -, -, y3, y4, y5, -⟩ := hR.dims ht
  obtain ⟨z, hz, z1, z2, -, -, z3, z4, z5, -⟩ := hR.dims ha
  obtain ⟨w, hw, w1, w2, -, -, w3, w4, w5, -⟩ := hR.dims hb
  simp only [Dense.tprfb] at hD
  split at hD
  case isFalse => cases hD
  case isTrue g =>
  rw [x1, x2, y1, y2, z1, z2, w1, w2] at g
  obtain ⟨g1, g2, g3, g4, g5⟩ := g
  have hcon : DObj.contract [x.arg w.rows y.cols x.stride, y.arg y.cols y.cols y.stride]
      [z.arg y.cols w.cols z.stride, w.arg w.rows w.cols w.stride] = .ok () := by
    refine contract_ok ?_ ?_ (List.pairwise_pair.2 ?_)
    · intro u hu
      simp only [List.cons_append, List.nil_append, List.mem_cons, List.not_mem_nil, or_false] at hu
      rcases hu with rfl | rfl | rfl | rfl
      · exact ⟨x3, Nat.le_trans g2 x4⟩
      · exact ⟨y3, y4⟩
      · exact ⟨z3, Nat.le_trans g5 z4⟩
      · exact ⟨w3, w4⟩
    · intro u hu r hr
      simp only [List.mem_cons, List.not_mem_nil, or_false] at hu hr
      rcases hu with rfl | rfl <;> rcases hr with rfl | rfl
      · exact hS.shares ha hv hav hz hx z5 g4 g5 g1 g2
      · exact hS.shares ha ht hat hz hy z5 g4 g5 g3 (Nat.le_refl _)
      · exact hS.shares hb hv hbv hw hx w5 (Nat.le_refl _) (Nat.le_refl _) g1 g2
      · exact hS.shares hb ht hbt hw hy w5 (Nat.le_refl _) (Nat.le_refl _) g3 (Nat.le_refl _)
    · exact hS.shares ha hb hab hz hw z5 g4 g5 (Nat.le_refl _) (Nat.le_refl _)
  have hX : ∀ p < y.cols, ∀ j < w.cols,
      (∑ q ∈ range y.cols, (if tr then ((V t).corner y.cols y.cols).tri .upper false q p
          else ((V t).corner y.cols y.cols).tri .upper false p q) *
        (((V a).corner y.cols w.cols).val q j +
          ∑ l ∈ range w.rows, ((V v).corner w.rows y.cols).val l q * (V b).val l j)) =
      ∑ q ∈ range y.cols, (if tr then (V t).tri .upper false q p else (V t).tri .upper false p q) *
        ((V a).val q j + ∑ l ∈ range w.rows, (V v).val l q * (V b).val l j) := by
    intro p hp j hj
    refine sum_congr rfl fun q hq => ?_
    have hq' := mem_range.1 hq
    rw [Dense.corner_tri hq' hp, Dense.corner_tri hp hq', Dense.corner_val hq' hj]
    congr 2
    refine sum_congr rfl fun l hl => ?_
    rw [Dense.corner_val (mem_range.1 hl) hq']
  rw [y2, w1, w2] at hD
  have hE : ∃ E, Dense.tprfb ((V v).corner w.rows y.cols) ((V t).corner y.cols y.cols)
      ((V a).corner y.cols w.cols) (V b) tr = .ok E ∧
      (∀ i < z.rows, ∀ j < z.cols, D.1.val i j = if i < y.cols ∧ j < w.cols then E.1.val i j
        else (V a).val i j) ∧ ∀ i < w.rows, ∀ j < w.cols, D.2.val i j = E.2.val i j := by
    refine ⟨_, by
      simp only [Dense.tprfb]
      rw [if_pos (by
        rw [w1, w2]
        exact ⟨Nat.le_refl _, Nat.le_refl _, Nat.le_refl _, Nat.le_refl _, Nat.le_refl _⟩)], ?_, ?_⟩
    · intro i hi j hj
      rw [← Except.ok.inj hD]
      simp only [w1, w2]
      by_cases hc : i < y.cols ∧ j < w.cols
      · rw [if_pos hc, if_pos hc, if_pos (show i < ((V t).corner y.cols y.cols).cols ∧ j < w.cols from hc),
          Dense.corner_val hc.1 hc.2]
        congr 1
        exact (hX i hc.1 j hc.2).symm
      · rw [if_neg hc, if_neg hc]
    · intro i hi j hj
      rw [← Except.ok.inj hD]
      simp only [w1]
      change _ = _ - ∑ p ∈ range y.cols, _
      congr 1
      refine sum_congr rfl fun p hp => ?_
      have hp' := mem_range.1 hp
      rw [Dense.corner_val hi hp']
      congr 1
      exact (hX p hp' j hj).symm
  obtain ⟨E, hE, hE1, hE2⟩ := hE
  have r1 : D.1.rows = z.rows := by rw [← Except.ok.inj hD, z1]
  have r2 : D.1.cols = z.cols := by rw [← Except.ok.inj hD, z2]
  have r3 : D.2.rows = w.rows := by rw [← Except.ok.inj hD]
  have r4 : D.2.cols = w.cols := by rw [← Except.ok.inj hD]
  obtain ⟨h1, s1, s2, s3⟩ := hR.store hS ha hz g4 g5 E.1.val r1 r2 hE1
  obtain ⟨h2, u1, u2, u3⟩ := s3.storeFull hS hb hw r3 r4 (v := E.2.val) hE2
  refine ⟨h2, ?_, Heap.Same.trans
    (s2.mono (fun _ k hk => ⟨a, by simp [ArithOp.targets], z, hz, hk⟩))
    (u2.mono (fun _ k hk => ⟨b, by simp [ArithOp.targets], w, hw, hk⟩)), u3⟩
  simp only [Mem.arith, obj_eq hx, obj_eq hy, obj_eq hz, obj_eq hw, except_bind_ok, DObj.tpmqrt, hcon,
    hR.fetch hv hx g1 g2, hR.fetch ht hy g3 (Nat.le_refl y.cols), hR.fetch ha hz g4 g5,
    hR.fetchFull hb hw, hE, s1]
  exact u1

end

end Verif
