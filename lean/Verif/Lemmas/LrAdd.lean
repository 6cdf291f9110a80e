import Verif.Lemmas.Gemm
import Verif.Lemmas.MatOps
import Verif.Spec.Lapack

set_option linter.unusedSectionVars false
set_option linter.unusedVariables false

namespace Verif
open Finset

variable {R : Type} [CommRing R]

theorem sum_range_split {M : Type} [AddCommMonoid M] (f : Nat → M) (m n : Nat) :
    ∑ x ∈ range (m + n), f x = ∑ x ∈ range m, f x + ∑ x ∈ range n, f (m + x) :=
  Finset.sum_range_add f m n

theorem terms_le {k r : Nat} (hr : r ≤ k) {u : Nat → Nat → R} {s : Nat → R} {v : Nat → Nat → R}
    (h : ∀ l < k, r ≤ l → s l = 0) (i j : Nat) : terms k u s v i j = terms r u s v i j := by
  obtain ⟨t, rfl⟩ := Nat.exists_eq_add_of_le hr
  rw [terms, sum_range_split, terms]
  rw [Finset.sum_eq_zero (s := range t), add_zero]
  intro x hx
  rw [h (r + x) (by have := mem_range.1 hx; omega) (by omega)]
  simp

theorem LowRank.Keeps.entry {C : LowRank R} (hw : C.WF) (hs : C.Square) {u : Nat → Nat → R}
    {s : Nat → R} {v : Nat → Nat → R} (h : C.Keeps u s v) {i j : Nat} (hi : i < C.dim0)
    (hj : j < C.dim1) : C.entry i j = terms C.rank u s v i j := by
  rw [LowRank.entry, terms, hs, hw.srows]
  refine Finset.sum_congr rfl (fun b hb => ?_)
  have hb' := mem_range.1 hb
  rw [h.V b hb' j hj]
  congr 1
  rw [Finset.sum_eq_single b]
  · rw [h.U i hi b hb', h.S b hb' b hb', if_pos rfl]
  · intro a ha hab
    rw [h.S a (mem_range.1 ha) b hb', if_neg hab, mul_zero]
  · intro h'; exact absurd hb h'

namespace Dense

theorem copyTo_ok {A B : Dense R} {m n : Nat} (h : A.copyTo m n = .ok B) :
    m ≤ A.rows ∧ n ≤ A.cols ∧ B = ⟨m, n, A.val⟩ := by
  simp only [copyTo, except_bind_eq_ok, assertM_eq_ok, decide_eq_true_eq] at h
  obtain ⟨-, h1, -, h2, h⟩ := h
  exact ⟨h1, h2, (Except.ok.inj h).symm⟩

theorem copyTo_eq {A : Dense R} {m n : Nat} (h1 : m ≤ A.rows) (h2 : n ≤ A.cols) :
    A.copyTo m n = .ok ⟨m, n, A.val⟩ := by
  simp [copyTo, assertM, h1, h2]

theorem resize_ok {A B : Dense R} {m n : Nat} (h : A.resize m n = .ok B) :
    m ≤ A.rows ∧ n ≤ A.cols ∧ B = ⟨m, n, A.val⟩ := by
  simp only [resize, except_bind_eq_ok, assertM_eq_ok, decide_eq_true_eq, Nat.zero_add] at h
  obtain ⟨-, h1, -, h2, h⟩ := h
  exact ⟨h1, h2, (Except.ok.inj h).symm⟩

theorem resize_eq {A : Dense R} {m n : Nat} (h1 : m ≤ A.rows) (h2 : n ≤ A.cols) :
    A.resize m n = .ok ⟨m, n, A.val⟩ := by
  simp [resize, assertM, h1, h2]

/-- Untransposed product into a new matrix. -/
theorem gemmNew_ff {A B D : Dense R} (h : gemmNew A B 1 false false = .ok D) :
    A.cols = B.rows ∧ D = ⟨A.rows, B.cols, mm A.cols A.val B.val⟩ := by
  obtain ⟨h1, h2, h3, h4⟩ := Mat.Dense_gemmNew_spec h
  refine ⟨h1, ?_⟩
  rw [smul_one] at h4
  cases D
  simp only [Mat.dop_false] at *
  simp [h2, h3, h4]

theorem gemmNew_ff_eq {A B : Dense R} (h : A.cols = B.rows) :
    gemmNew A B 1 false false = .ok ⟨A.rows, B.cols, mm A.cols A.val B.val⟩ := by
  simp only [gemmNew, h, gemm, zero, assertM, decide_true, if_true, except_bind_ok, Bool.false_eq_true,
    if_false, opVal, mul_zero, add_zero, one_mul]
  congr

theorem gemmNew_tf {A B D : Dense R} (h : gemmNew A B 1 true false = .ok D) :
    A.rows = B.rows ∧ D = ⟨A.cols, B.cols, mm A.rows (fun i j => A.val j i) B.val⟩ := by
  obtain ⟨h1, h2, h3, h4⟩ := Mat.Dense_gemmNew_spec h
  refine ⟨h1, ?_⟩
  rw [smul_one] at h4
  cases D
  simp only [Mat.dop, Dense.transpose, if_true, Bool.false_eq_true, if_false] at *
  simp [h2, h3, h4]

theorem gemmNew_tf_eq {A B : Dense R} (h : A.rows = B.rows) :
    gemmNew A B 1 true false = .ok ⟨A.cols, B.cols, mm A.rows (fun i j => A.val j i) B.val⟩ := by
  simp only [gemmNew, h, gemm, zero, assertM, decide_true, if_true, except_bind_ok, Bool.false_eq_true,
    if_false, opVal, mul_zero, add_zero, one_mul]
  congr

theorem gemmNew_ft {A B D : Dense R} (h : gemmNew A B 1 false true = .ok D) :
    A.cols = B.cols ∧ D = ⟨A.rows, B.rows, mm A.cols A.val (fun i j => B.val j i)⟩ := by
  obtain ⟨h1, h2, h3, h4⟩ := Mat.Dense_gemmNew_spec h
  refine ⟨h1, ?_⟩
  rw [smul_one] at h4
  cases D
  simp only [Mat.dop, Dense.transpose, if_true, Bool.false_eq_true, if_false] at *
  simp [h2, h3, h4]

theorem gemmNew_ft_eq {A B : Dense R} (h : A.cols = B.cols) :
    gemmNew A B 1 false true = .ok ⟨A.rows, B.rows, mm A.cols A.val (fun i j => B.val j i)⟩ := by
  simp only [gemmNew, h, gemm, zero, assertM, decide_true, if_true, except_bind_ok, Bool.false_eq_true,
    if_false, opVal, mul_zero, add_zero, one_mul]
  congr

theorem gemm_ff {A B C D : Dense R} {α β : R} (h : gemm A B C α β false false = .ok D) :
    A.rows = C.rows ∧ A.cols = B.rows ∧ B.cols = C.cols ∧
    D = ⟨C.rows, C.cols, fun i j => α * mm A.cols A.val B.val i j + β * C.val i j⟩ := by
  obtain ⟨h1, h2, h3, h4, h5, h6⟩ := Mat.Dense_gemm_spec h
  refine ⟨h1, h2, h3, ?_⟩
  cases D
  simp only [Mat.dop_false] at *
  simp only [h4, h5, Dense.mk.injEq, true_and]
  funext i j
  exact h6 i j

theorem gemm_ff_eq {A B C : Dense R} {α β : R} (h1 : A.rows = C.rows) (h2 : A.cols = B.rows)
    (h3 : B.cols = C.cols) : gemm A B C α β false false =
      .ok ⟨C.rows, C.cols, fun i j => α * mm A.cols A.val B.val i j + β * C.val i j⟩ := by
  simp only [gemm, h1, h2, h3, assertM, decide_true, if_true, except_bind_ok, Bool.false_eq_true,
    if_false, opVal]
  congr

/-- Product written over a zero matrix. -/
theorem gemm_zero {A B D : Dense R} {m n : Nat} (h : gemm A B (zero m n) 1 0 false false = .ok D) :
    A.rows = m ∧ A.cols = B.rows ∧ B.cols = n ∧ D = ⟨m, n, mm A.cols A.val B.val⟩ := by
  obtain ⟨h1, h2, h3, h4⟩ := gemm_ff h
  refine ⟨h1, h2, h3, ?_⟩
  rw [h4]
  simp [zero]

theorem gemm_zero_eq {A B : Dense R} {m n : Nat} (h1 : A.rows = m) (h2 : A.cols = B.rows)
    (h3 : B.cols = n) : gemm A B (zero m n) 1 0 false false = .ok ⟨m, n, mm A.cols A.val B.val⟩ := by
  rw [gemm_ff_eq (by exact h1) h2 (by exact h3)]
  simp [zero]

end Dense

namespace Lapack

theorem qrInto_ok {L : Lapack R} {A : Dense R} {a b c d : Nat} {q : Dense R × Dense R}
    (h : L.qrInto A a b c d = .ok q) :
    a = A.rows ∧ b = c ∧ d = A.cols ∧ q = (⟨a, b, (L.qr A b).1⟩, ⟨c, d, (L.qr A b).2⟩) := by
  simp only [qrInto, except_bind_eq_ok, assertM_eq_ok, decide_eq_true_eq] at h
  obtain ⟨-, h1, -, h2, -, h3, h⟩ := h
  exact ⟨h1, h2, h3, (Except.ok.inj h).symm⟩

theorem qrInto_eq (L : Lapack R) {A : Dense R} {a b c d : Nat} (h1 : a = A.rows) (h2 : b = c)
    (h3 : d = A.cols) :
    L.qrInto A a b c d = .ok (⟨a, b, (L.qr A b).1⟩, ⟨c, d, (L.qr A b).2⟩) := by
  subst h1 h2 h3
  simp [qrInto, assertM]

theorem rqInto_ok {L : Lapack R} {A : Dense R} {a b c d : Nat} {q : Dense R × Dense R}
    (h : L.rqInto A a b c d = .ok q) :
    a = A.rows ∧ b = c ∧ d = A.cols ∧ q = (⟨a, b, (L.rq A b).1⟩, ⟨c, d, (L.rq A b).2⟩) := by
  simp only [rqInto, except_bind_eq_ok, assertM_eq_ok, decide_eq_true_eq] at h
  obtain ⟨-, h1, -, h2, -, h3, h⟩ := h
  exact ⟨h1, h2, h3, (Except.ok.inj h).symm⟩

theorem rqInto_eq (L : Lapack R) {A : Dense R} {a b c d : Nat} (h1 : a = A.rows) (h2 : b = c)
    (h3 : d = A.cols) :
    L.rqInto A a b c d = .ok (⟨a, b, (L.rq A b).1⟩, ⟨c, d, (L.rq A b).2⟩) := by
  subst h1 h2 h3
  simp [rqInto, assertM]

/-- `terms` as a product of three matrices with a diagonal in the middle. -/
theorem terms_mm (k m n : Nat) (q u : Nat → Nat → R) (s : Nat → R) (v w : Nat → Nat → R) (i j : Nat) :
    terms k (mm m q u) s (mm n v w) i j = mm n (mm m q (terms k u s v)) w i j := by
  simp only [terms, mm, Finset.mul_sum, Finset.sum_mul]
  rw [Finset.sum_comm]
  refine Finset.sum_congr rfl (fun a _ => ?_)
  rw [Finset.sum_comm]
  refine Finset.sum_congr rfl (fun b _ => ?_)
  refine Finset.sum_congr rfl (fun c _ => ?_)
  ring

/-- Product of the concatenations `[a b] * [c; d] = a*c + b*d`. -/
theorem mm_cat (a b c d : Dense R) (h : a.cols = c.rows) (i j : Nat) :
    mm (a.cols + b.cols) (Dense.hcat a b).val (Dense.vcat c d).val i j =
      mm a.cols a.val c.val i j + mm b.cols b.val d.val i j := by
  simp only [mm, sum_range_split, Dense.hcat, Dense.vcat]
  congr 1
  · refine Finset.sum_congr rfl (fun x hx => ?_)
    have := mem_range.1 hx
    rw [if_pos this, if_pos (by omega)]
  · refine Finset.sum_congr rfl (fun x hx => ?_)
    rw [if_neg (by omega), if_neg (by omega)]
    rw [show a.cols + x - a.cols = x by omega, show a.cols + x - c.rows = x by omega]

theorem mm_cat_block (a b m00 m01 m10 m11 v w : Dense R) (h : a.cols = m00.rows)
    (hv : v.rows = m00.cols) (hm : m10.cols = m00.cols) (i j : Nat) :
    mm (m00.cols + m01.cols) (mm (a.cols + b.cols) (Dense.hcat a b).val
      (Dense.vcat (Dense.hcat m00 m01) (Dense.hcat m10 m11)).val) (Dense.vcat v w).val i j =
    mm m00.cols (mm a.cols a.val m00.val + mm b.cols b.val m10.val) v.val i j +
    mm m01.cols (mm a.cols a.val m01.val + mm b.cols b.val m11.val) w.val i j := by
  have X : ∀ c, mm (a.cols + b.cols) (Dense.hcat a b).val
      (Dense.vcat (Dense.hcat m00 m01) (Dense.hcat m10 m11)).val i c =
      mm a.cols a.val (Dense.hcat m00 m01).val i c + mm b.cols b.val (Dense.hcat m10 m11).val i c :=
    fun c => mm_cat _ _ _ _ (by exact h) i c
  rw [mm, sum_range_split]
  congr 1
  · refine Finset.sum_congr rfl (fun c hc => ?_)
    have hc := mem_range.1 hc
    rw [X]
    congr 1
    · simp only [Pi.add_apply]
      congr 1 <;> refine mm_congr (fun _ _ => rfl) (fun a _ => ?_)
      · simp only [Dense.hcat, if_pos hc]
      · simp only [Dense.hcat, hm, if_pos hc]
    · simp only [Dense.vcat, hv, if_pos hc]
  · refine Finset.sum_congr rfl (fun c hc => ?_)
    rw [X]
    congr 1
    · simp only [Pi.add_apply]
      congr 1 <;> refine Finset.sum_congr rfl (fun a _ => ?_)
      · simp only [Dense.hcat]
        rw [if_neg (by omega), Nat.add_sub_cancel_left]
      · simp only [Dense.hcat, hm]
        rw [if_neg (by omega), Nat.add_sub_cancel_left]
    · simp only [Dense.vcat, hv]
      rw [if_neg (by omega), Nat.add_sub_cancel_left]

theorem OrthoCols_mm {m p k : Nat} {q u : Nat → Nat → R} (hq : OrthoCols m p q)
    (hu : OrthoCols p k u) : OrthoCols m k (mm p q u) := by
  intro a ha b hb
  rw [← hu a ha b hb]
  simp only [mm, Finset.sum_mul_sum]
  rw [Finset.sum_comm]
  refine Finset.sum_congr rfl (fun x hx => ?_)
  rw [Finset.sum_comm]
  have : ∀ y ∈ range p, ∑ i ∈ range m, q i x * u x a * (q i y * u y b) =
      (if x = y then 1 else 0) * (u x a * u y b) := by
    intro y hy
    rw [← hq x (mem_range.1 hx) y (mem_range.1 hy), Finset.sum_mul]
    exact Finset.sum_congr rfl (fun _ _ => by ring)
  rw [Finset.sum_congr rfl this, Finset.sum_eq_single x]
  · simp
  · intro y _ hxy
    rw [if_neg (fun h => hxy h.symm), zero_mul]
  · intro h; exact absurd hx h

theorem OrthoRows_mm {n p k : Nat} {v w : Nat → Nat → R} (hw : OrthoRows n p w)
    (hv : OrthoRows p k v) : OrthoRows n k (mm p v w) := by
  have h1 : OrthoCols n p (fun i j => w j i) := hw
  have h2 : OrthoCols p k (fun i j => v j i) := hv
  have := OrthoCols_mm h1 h2
  intro a ha b hb
  rw [← this a ha b hb]
  refine Finset.sum_congr rfl (fun x _ => ?_)
  simp only [mm]
  congr 1 <;> exact Finset.sum_congr rfl (fun _ _ => by ring)

end Lapack

namespace LowRank

/-- What both kinds of rounded addition achieve: `C` keeps the first terms of a
factorization of `E`. -/
structure Rounded (L : Lapack R) (C : LowRank R) (m n : Nat) (E : Nat → Nat → R) (k : Nat)
    (u : Nat → Nat → R) (s : Nat → R) (v : Nat → Nat → R) : Prop where
  wf : C.WF
  sqr : C.Square
  dim0 : C.dim0 = m
  dim1 : C.dim1 = n
  rank : C.rank ≤ k
  keeps : C.Keeps u s v
  full : L.Factors → ∀ i < m, ∀ j < n, terms k u s v i j = E i j
  sing : ∃ X : Dense R, s = (L.svd X).2.1 ∧ k = min X.rows X.cols

theorem roundedAdd_ok [DecidableEq R] {L : Lapack R} {A B C : LowRank R} (hA : A.WF) (hB : B.WF)
    (h1 : A.dim1 = B.dim1) (h : A.roundedAdd L B = .ok C) :
    A.dim0 = B.dim0 ∧ C.eps = A.eps ∧ ∃ k u s v,
      Rounded L C A.dim0 A.dim1 (fun i j => A.entry i j + B.entry i j) k u s v ∧
      k = min (min A.dim0 (A.S.cols + B.S.cols)) (min (A.S.cols + B.S.cols) A.dim1) ∧
      C.rank = (if A.eps ≠ 0 then L.truncRank ⟨k, k, fun i j => if i = j then s i else 0⟩ A.eps
        else A.rank) ∧
      (L.Ortho → OrthoCols A.dim0 k u ∧ OrthoRows A.dim1 k v) := by
  simp only [roundedAdd, except_bind_eq_ok] at h
  obtain ⟨u0, hu0, u1, hu1, qu, hqu, v0, hv0, v1, hv1, qv, hqv, RR, hRR, S, hS, u, hu, U, hU, v, hv,
    V, hV, h⟩ := h
  obtain ⟨-, a2, -, rfl⟩ := Dense.gemm_zero hu0
  obtain ⟨b1, b2, -, rfl⟩ := Dense.gemm_zero hu1
  obtain ⟨-, -, -, rfl⟩ := Lapack.qrInto_ok hqu
  obtain ⟨-, -, rfl⟩ := Dense.copyTo_ok hv0
  obtain ⟨-, c2, rfl⟩ := Dense.copyTo_ok hv1
  obtain ⟨-, -, -, rfl⟩ := Lapack.rqInto_ok hqv
  obtain ⟨d1, rfl⟩ := Dense.gemmNew_ff hRR
  obtain ⟨e1, -, rfl⟩ := Dense.resize_ok hS
  obtain ⟨-, -, rfl⟩ := Dense.resize_ok hu
  obtain ⟨-, rfl⟩ := Dense.gemmNew_ff hU
  obtain ⟨-, -, rfl⟩ := Dense.resize_ok hv
  obtain ⟨-, rfl⟩ := Dense.gemmNew_ff hV
  have hC := (Except.ok.inj h).symm
  have hvr := hA.vrows
  have hvr' := hB.vrows
  have hd0 : A.dim0 = B.dim0 := by rw [← hA.urows, ← hB.urows, b1]
  refine ⟨hd0, by rw [hC], ?_⟩
  clear h hu0 hu1 hqu hv0 hv1 hqv hRR hu hU hv hV hS
  generalize hUc : Dense.hcat (⟨A.U.rows, A.S.cols, mm A.U.cols A.U.val A.S.val⟩ : Dense R)
    ⟨A.U.rows, B.S.cols, mm B.U.cols B.U.val B.S.val⟩ = Uc at *
  generalize hVc : Dense.vcat (⟨A.V.rows, A.V.cols, A.V.val⟩ : Dense R)
    ⟨B.V.rows, A.V.cols, B.V.val⟩ = Vc at *
  have ur : Uc.rows = A.dim0 := by rw [← hUc, ← hA.urows]; rfl
  have uc : Uc.cols = A.S.cols + B.S.cols := by rw [← hUc]; rfl
  have vr : Vc.rows = A.S.cols + B.S.cols := by rw [← hVc, ← hvr, ← hvr']; rfl
  have vc : Vc.cols = A.dim1 := by rw [← hVc, ← hA.vcols]; rfl
  generalize hRR : (⟨min Uc.rows Uc.cols, min Vc.rows Vc.cols, mm Uc.cols
    (L.qr Uc (min Uc.rows Uc.cols)).2 (L.rq Vc (min Vc.rows Vc.cols)).1⟩ : Dense R) = RR at *
  have rr : RR.rows = min Uc.rows Uc.cols := by rw [← hRR]
  have rc : RR.cols = min Vc.rows Vc.cols := by rw [← hRR]
  have rv : RR.val = mm Uc.cols (L.qr Uc (min Uc.rows Uc.cols)).2 (L.rq Vc (min Vc.rows Vc.cols)).1 := by
    rw [← hRR]
  refine ⟨min RR.rows RR.cols, mm (min Uc.rows Uc.cols) (L.qr Uc (min Uc.rows Uc.cols)).1 (L.svd RR).1,
    (L.svd RR).2.1, mm (min Vc.rows Vc.cols) (L.svd RR).2.2 (L.rq Vc (min Vc.rows Vc.cols)).2, ?_, ?_, ?_, ?_⟩
  · rw [hC]
    refine ⟨⟨ur, rfl, rfl, rfl, vc⟩, rfl, rfl, rfl, e1, ⟨?_, ?_, ?_⟩, ?_, RR, rfl, rfl⟩
    · intro i _ l _; rfl
    · intro a _ b _; rfl
    · intro l _ j _
      show mm RR.cols _ _ _ _ = _
      rw [rc]
      rfl
    · intro hL i hi j hj
      rw [Lapack.terms_mm]
      have key : ∀ a < RR.rows, ∀ b < RR.cols,
          terms (min RR.rows RR.cols) (L.svd RR).1 (L.svd RR).2.1 (L.svd RR).2.2 a b =
          mm Uc.cols (L.qr Uc (min Uc.rows Uc.cols)).2 (L.rq Vc (min Vc.rows Vc.cols)).1 a b := by
        intro a ha b hb
        rw [hL.svd RR a ha b hb, rv]
      have : mm (min Vc.rows Vc.cols) (mm (min Uc.rows Uc.cols) (L.qr Uc (min Uc.rows Uc.cols)).1
          (terms (min RR.rows RR.cols) (L.svd RR).1 (L.svd RR).2.1 (L.svd RR).2.2))
          (L.rq Vc (min Vc.rows Vc.cols)).2 i j =
        mm (min Vc.rows Vc.cols) (mm (min Uc.rows Uc.cols) (L.qr Uc (min Uc.rows Uc.cols)).1
          (mm Uc.cols (L.qr Uc (min Uc.rows Uc.cols)).2 (L.rq Vc (min Vc.rows Vc.cols)).1))
          (L.rq Vc (min Vc.rows Vc.cols)).2 i j := by
        refine mm_congr (fun b hb => ?_) (fun _ _ => rfl)
        exact mm_congr (fun _ _ => rfl) (fun a ha => key a (by rw [rr]; exact ha) b (by rw [rc]; exact hb))
      rw [this, ← mm_assoc, mm_assoc (min Vc.rows Vc.cols)]
      have e : mm Uc.cols Uc.val Vc.val i j = A.entry i j + B.entry i j := by
        rw [← hUc, ← hVc]
        refine (Lapack.mm_cat _ _ _ _ (by exact hvr.symm) i j).trans ?_
        rw [Mat.LowRank_entry_mm, Mat.LowRank_entry_mm, a2, b2]
      rw [← e]
      refine mm_congr (fun l hl => ?_) (fun l hl => ?_)
      · exact hL.qr Uc i (by rw [ur]; exact hi) l hl
      · exact hL.rq Vc l (by rw [vr, ← uc]; exact hl) j (by rw [vc]; exact hj)
  · rw [rr, rc, ur, uc, vr, vc]
  · rw [hC]
    rfl
  · intro hO
    refine ⟨Lapack.OrthoCols_mm (by rw [← ur]; exact hO.qr Uc) ?_,
      Lapack.OrthoRows_mm (by rw [← vc]; exact hO.rq Vc) ?_⟩
    · rw [← rr]; exact hO.svdU RR
    · rw [← rc]; exact hO.svdV RR

theorem mm_add_left (k : Nat) (f g h : Nat → Nat → R) : mm k (f + g) h = mm k f h + mm k g h := by
  funext i j
  simp only [mm, Pi.add_apply, add_mul, Finset.sum_add_distrib]

theorem mm_add_right (k : Nat) (f g h : Nat → Nat → R) : mm k f (g + h) = mm k f g + mm k f h := by
  funext i j
  simp only [mm, Pi.add_apply, mul_add, Finset.sum_add_distrib]

/-- The algebra behind fast rounded addition: `[U Q] * M * [V; W]` with
`M = [[S + Z*T*X, Z*T*Y], [P*T*X, P*T*Y]]` is
`U*S*V + (U*Z + Q*P) * T * (X*V + Y*W)`. -/
theorem fast_blocks (a a' b b' c c' : Nat) (U Q S Z T P X Y V W : Nat → Nat → R) (i j : Nat) :
    mm a' (mm a U (S + mm c' (mm c Z T) X) + mm b Q (mm c' (mm c P T) X)) V i j +
      mm b' (mm a U (mm c' (mm c Z T) Y) + mm b Q (mm c' (mm c P T) Y)) W i j =
    mm a' (mm a U S) V i j +
      mm c' (mm c (mm a U Z + mm b Q P) T) (mm a' X V + mm b' Y W) i j := by
  have e : ∀ (K : Nat → Nat → R),
      mm a U (mm c' (mm c Z T) K) + mm b Q (mm c' (mm c P T) K) =
      mm c' (mm c (mm a U Z + mm b Q P) T) K := by
    intro K
    rw [mm_add_left, mm_add_left, mm_assoc c' c (mm a U Z), mm_assoc c a U, mm_assoc c' c (mm b Q P),
      mm_assoc c b Q, mm_assoc c' c Z, mm_assoc c' c P]
  rw [mm_add_right a U S, add_assoc (mm a U S), e, e, mm_add_left, Pi.add_apply, Pi.add_apply,
    mm_assoc a' c', mm_assoc b' c', mm_add_right c']
  simp only [Pi.add_apply]
  ring

/-- How the factorization behind fast rounded addition arises: `M` is what the SVD is taken
of, `Q*P` the QR factorization of the part of `B.U` outside of `A.U`, `Y*W` the RQ
factorization of the part of `B.V` outside of `A.V`. -/
structure FastParts (L : Lapack R) (A B : LowRank R) (u : Nat → Nat → R) (s : Nat → R) (v : Nat → Nat → R)
    (M : Dense R) (Q P Y W : Nat → Nat → R) : Prop where
  u_eq : ∀ i l, u i l = mm (A.rank + B.rank) (Dense.hcat ⟨A.dim0, A.rank, A.U.val⟩ ⟨A.dim0, B.rank, Q⟩).val
    (L.svd M).1 i l
  v_eq : ∀ l j, v l j = mm (A.rank + B.S.cols) (L.svd M).2.2
    (Dense.vcat ⟨A.rank, A.dim1, A.V.val⟩ ⟨B.S.cols, A.dim1, W⟩).val l j
  s_eq : s = (L.svd M).2.1
  rows : M.rows = A.rank + B.rank
  cols : M.cols = A.rank + B.S.cols
  low : ∃ N, ∀ a b, M.val (A.rank + a) b = mm B.rank P N a b
  qr : L.Factors → ∀ i < A.dim0, ∀ l < B.rank, mm B.rank Q P i l =
    B.U.val i l - mm A.rank A.U.val (mm A.dim0 (fun a i => A.U.val i a) B.U.val) i l
  rq : L.Factors → ∀ l < B.S.cols, ∀ j < A.dim1, mm B.S.cols Y W l j =
    B.V.val l j - mm A.rank (mm A.dim1 B.V.val (fun j a => A.V.val a j)) A.V.val l j
  orthoQ : L.Ortho → OrthoCols A.dim0 B.rank Q
  orthoW : L.Ortho → OrthoRows A.dim1 B.S.cols W

theorem fastAdd_ok [DecidableEq R] {L : Lapack R} {A B C : LowRank R} (hA : A.WF) (hAs : A.Square)
    (hB : B.WF) (h1 : A.dim1 = B.dim1) (he : A.eps = 0) (h : A.fastAdd L B = .ok C) :
    A.dim0 = B.dim0 ∧ C.eps = 0 ∧ C.rank = A.rank ∧ ∃ k u s v,
      Rounded L C A.dim0 A.dim1 (fun i j => A.entry i j + B.entry i j) k u s v ∧
      k = min (A.rank + B.S.rows) (A.rank + B.S.cols) ∧ ∃ M Q P Y W, FastParts L A B u s v M Q P Y W := by
  simp only [fastAdd, he, ne_eq, not_true_eq_false, if_false, except_bind_eq_ok] at h
  obtain ⟨Zu, hZu, Yu, hYu, qu, hqu, u0, hu0, u1, hu1, Zv, hZv, Yv, hYv, qv, hqv, v0, hv0, v1, hv1,
    ZuS, hZuS, RuS, hRuS, m0, hm0, m00, hm00, m01, hm01, m10, hm10, m11, hm11, S, hS, u, hu, U, hU,
    v, hv, V, hV, h⟩ := h
  obtain ⟨a1, rfl⟩ := Dense.gemmNew_tf hZu
  obtain ⟨-, -, -, rfl⟩ := Dense.gemm_ff hYu
  obtain ⟨-, -, -, rfl⟩ := Lapack.qrInto_ok hqu
  obtain ⟨-, -, rfl⟩ := Dense.copyTo_ok hu0
  obtain ⟨-, -, rfl⟩ := Dense.copyTo_ok hu1
  obtain ⟨b1, rfl⟩ := Dense.gemmNew_ft hZv
  obtain ⟨-, -, -, rfl⟩ := Dense.gemm_ff hYv
  obtain ⟨-, -, -, rfl⟩ := Lapack.rqInto_ok hqv
  obtain ⟨-, -, rfl⟩ := Dense.copyTo_ok hv0
  obtain ⟨-, -, rfl⟩ := Dense.copyTo_ok hv1
  obtain ⟨-, rfl⟩ := Dense.gemmNew_ff hZuS
  obtain ⟨-, rfl⟩ := Dense.gemmNew_ff hRuS
  obtain ⟨-, -, rfl⟩ := Dense.copyTo_ok hm0
  obtain ⟨-, -, -, rfl⟩ := Dense.gemm_ff hm00
  obtain ⟨-, -, -, rfl⟩ := Dense.gemm_zero hm01
  obtain ⟨c1, -, -, rfl⟩ := Dense.gemm_zero hm10
  obtain ⟨-, c2, c3, rfl⟩ := Dense.gemm_zero hm11
  obtain ⟨e1, -, rfl⟩ := Dense.resize_ok hS
  obtain ⟨-, -, rfl⟩ := Dense.resize_ok hu
  obtain ⟨-, rfl⟩ := Dense.gemmNew_ff hU
  obtain ⟨-, -, rfl⟩ := Dense.resize_ok hv
  obtain ⟨-, rfl⟩ := Dense.gemmNew_ff hV
  have hC := (Except.ok.inj h).symm
  clear h hZu hYu hqu hu0 hu1 hZv hYv hqv hv0 hv1 hZuS hRuS hm0 hm00 hm01 hm10 hm11 hS hu hU hv hV
  simp only at c1 c2 c3 a1 b1 e1 hC
  generalize hYu : (⟨B.U.rows, B.U.cols, _⟩ : Dense R) = Yu at *
  generalize hYv : (⟨B.V.rows, B.V.cols, _⟩ : Dense R) = Yv at *
  generalize hZu : mm A.U.rows (fun i j => A.U.val j i) B.U.val = Zu at *
  generalize hZv : (mm B.V.cols B.V.val fun i j => A.V.val j i) = Zv at *
  have yur : Yu.rows = B.U.rows := by rw [← hYu]
  have yuc : Yu.cols = B.U.cols := by rw [← hYu]
  have yvr : Yv.rows = B.V.rows := by rw [← hYv]
  have yvc : Yv.cols = B.V.cols := by rw [← hYv]
  have qrf : L.Factors → ∀ i < B.U.rows, ∀ l < B.U.cols,
      (mm A.U.cols A.U.val Zu + mm B.S.rows (L.qr Yu (min B.U.rows B.U.cols)).1
        (L.qr Yu (min B.U.rows B.U.cols)).2) i l = B.U.val i l := by
    intro hL i hi l hl
    have : mm (min Yu.rows Yu.cols) (L.qr Yu (min Yu.rows Yu.cols)).1
      (L.qr Yu (min Yu.rows Yu.cols)).2 i l = Yu.val i l :=
      hL.qr Yu i (by rw [yur]; exact hi) l (by rw [yuc]; exact hl)
    rw [yur, yuc] at this
    rw [Pi.add_apply, Pi.add_apply, ← c1, this, ← hYu]
    ring
  have rqf : L.Factors → ∀ l < B.V.rows, ∀ j < B.V.cols,
      (mm A.V.rows Zv A.V.val + mm B.S.cols (L.rq Yv (min B.V.rows B.V.cols)).1
        (L.rq Yv (min B.V.rows B.V.cols)).2) l j = B.V.val l j := by
    intro hL l hl j hj
    have : mm (min Yv.rows Yv.cols) (L.rq Yv (min Yv.rows Yv.cols)).1
      (L.rq Yv (min Yv.rows Yv.cols)).2 l j = Yv.val l j :=
      hL.rq Yv l (by rw [yvr]; exact hl) j (by rw [yvc]; exact hj)
    rw [yvr, yvc] at this
    rw [Pi.add_apply, Pi.add_apply, ← c3, this, ← hYv]
    ring
  have d0 : B.U.rows = A.dim0 := by rw [← hA.urows, a1]
  have d1 : B.V.cols = A.dim1 := by rw [← hA.vcols, b1]
  have qro : L.Ortho → OrthoCols A.dim0 B.rank (L.qr Yu (min B.U.rows B.U.cols)).1 := by
    intro hO
    have := hO.qr Yu
    rw [yur, yuc, c1, d0] at this
    rw [c1, ← hB.srows]
    exact this
  have rqo : L.Ortho → OrthoRows A.dim1 B.S.cols (L.rq Yv (min B.V.rows B.V.cols)).2 := by
    intro hO
    have := hO.rq Yv
    rw [yvr, yvc, c3, d1] at this
    rw [c3]
    exact this
  generalize (L.qr Yu (min B.U.rows B.U.cols)).1 = Q at *
  generalize (L.qr Yu (min B.U.rows B.U.cols)).2 = P at *
  generalize (L.rq Yv (min B.V.rows B.V.cols)).1 = Y at *
  generalize (L.rq Yv (min B.V.rows B.V.cols)).2 = W at *
  rw [c1, c3] at hC
  generalize hM : Dense.vcat _ _ = M at e1
  rw [hM] at hC
  have mr : M.rows = A.S.rows + B.S.rows := by rw [← hM]; rfl
  have mc : M.cols = A.S.cols + B.S.cols := by rw [← hM]; rfl
  generalize hUc : Dense.hcat (⟨A.U.rows, A.U.cols, A.U.val⟩ : Dense R) ⟨A.U.rows, B.S.rows, Q⟩ = Uc at *
  generalize hVc : Dense.vcat (⟨A.V.rows, A.V.cols, A.V.val⟩ : Dense R) ⟨B.S.cols, A.V.cols, W⟩ = Vc at *
  have ur : Uc.rows = A.dim0 := by rw [← hUc, ← hA.urows]; rfl
  have uc : Uc.cols = M.rows := by rw [← hUc, mr, hA.srows, ← hA.ucols]; rfl
  have vr : Vc.rows = M.cols := by rw [← hVc, mc, ← hA.vrows]; rfl
  have vc : Vc.cols = A.dim1 := by rw [← hVc, ← hA.vcols]; rfl
  refine ⟨by rw [← hA.urows, ← hB.urows, a1], by rw [hC], by rw [hC], min M.rows M.cols,
    mm Uc.cols Uc.val (L.svd M).1, (L.svd M).2.1, mm M.cols (L.svd M).2.2 Vc.val, ?_, ?_, M, Q, P, Y, W, ?_⟩
  · rw [hC]
    refine ⟨⟨ur, rfl, rfl, rfl, vc⟩, rfl, rfl, rfl, e1, ⟨?_, ?_, ?_⟩, ?_, M, rfl, rfl⟩
    · intro i _ l _; rfl
    · intro a _ b _; rfl
    · intro l _ j _; rfl
    · intro hL i hi j hj
      rw [Lapack.terms_mm]
      have : mm M.cols (mm Uc.cols Uc.val
          (terms (min M.rows M.cols) (L.svd M).1 (L.svd M).2.1 (L.svd M).2.2)) Vc.val i j =
        mm M.cols (mm Uc.cols Uc.val M.val) Vc.val i j := by
        refine mm_congr (fun b hb => ?_) (fun _ _ => rfl)
        exact mm_congr (fun _ _ => rfl) (fun a ha => hL.svd M a (by rw [← uc]; exact ha) b hb)
      rw [this]
      have e : mm A.S.cols (mm A.U.cols A.U.val A.S.val) A.V.val i j +
          mm B.S.cols (mm B.U.cols (mm A.U.cols A.U.val Zu + mm B.S.rows Q P) B.S.val)
            (mm A.S.cols Zv A.V.val + mm B.S.cols Y W) i j = A.entry i j + B.entry i j := by
        rw [Mat.LowRank_entry_mm, Mat.LowRank_entry_mm, hA.ucols, hA.srows, hB.srows, ← hB.ucols]
        congr 1
        refine mm_congr (fun b hb => ?_) (fun b hb => ?_)
        · refine mm_congr (fun a ha => ?_) (fun _ _ => rfl)
          rw [← hA.ucols]
          have := qrf hL i (by rw [← a1, hA.urows]; exact hi) a ha
          rw [hB.srows, ← hB.ucols] at this
          exact this
        · rw [← hA.vrows]
          exact rqf hL b (by rw [← c2]; exact hb) j (by rw [b1, hA.vcols]; exact hj)
      rw [← e, ← fast_blocks, mc]
      have hb := Lapack.mm_cat_block (⟨A.U.rows, A.U.cols, A.U.val⟩ : Dense R) ⟨A.U.rows, B.S.rows, Q⟩
        ⟨A.S.rows, A.S.cols, fun i j => 1 * mm B.S.cols (mm B.U.cols Zu B.S.val) Zv i j + 1 * A.S.val i j⟩
        ⟨A.S.rows, B.S.cols, mm B.S.cols (mm B.U.cols Zu B.S.val) Y⟩
        ⟨B.S.rows, A.S.cols, mm B.S.cols (mm B.U.cols P B.S.val) Zv⟩
        ⟨B.S.rows, B.S.cols, mm B.S.cols (mm B.U.cols P B.S.val) Y⟩
        ⟨A.V.rows, A.V.cols, A.V.val⟩ ⟨B.S.cols, A.V.cols, W⟩ (hA.ucols.trans hA.srows.symm) hA.vrows rfl i j
      rw [hM, hUc, hVc] at hb
      rw [uc, mr, hA.srows, ← hA.ucols]
      refine hb.trans ?_
      have e2 : (fun i j => 1 * mm B.S.cols (mm B.U.cols Zu B.S.val) Zv i j + 1 * A.S.val i j) =
          A.S.val + mm B.S.cols (mm B.U.cols Zu B.S.val) Zv := by
        funext x y
        simp only [Pi.add_apply, one_mul]
        rw [add_comm]
      rw [e2]
  · rw [mr, mc, hA.srows, hAs]
  · have as : A.S.cols = A.rank := hAs
    refine ⟨fun i l => ?_, fun l j => ?_, rfl, by rw [mr, hA.srows, hB.srows], by rw [mc, as], ?_, ?_, ?_, qro, rqo⟩
    · rw [uc, mr, hA.srows, hB.srows, ← hUc, hB.srows, hA.ucols]
      rfl
    · rw [mc, as, ← hVc, hA.vrows, as]
      rfl
    · refine ⟨fun x b => if b < A.rank then mm B.S.cols B.S.val Zv x b else mm B.S.cols B.S.val Y x (b - A.rank), fun a b => ?_⟩
      rw [← hM]
      simp only [Dense.vcat, Dense.hcat]
      rw [if_neg (by rw [hA.srows]; omega), as, hA.srows, Nat.add_sub_cancel_left, hB.ucols]
      by_cases hb : b < A.rank
      · rw [if_pos hb, mm_assoc]
        exact mm_congr (fun _ _ => rfl) (fun x _ => by rw [if_pos hb])
      · rw [if_neg hb, mm_assoc]
        exact Finset.sum_congr rfl (fun x _ => by beta_reduce; rw [if_neg hb])
    · intro hL i hi l hl
      have := qrf hL i (by rw [d0]; exact hi) l (by rw [hB.ucols]; exact hl)
      rw [hB.srows, hA.ucols, Pi.add_apply, Pi.add_apply, ← hZu, hA.urows] at this
      rw [← this]
      ring
    · intro hL l hl j hj
      have := rqf hL l (by rw [hB.vrows]; exact hl) j (by rw [d1]; exact hj)
      rw [hA.vrows, as, Pi.add_apply, Pi.add_apply, ← hZv, d1] at this
      rw [← this]
      ring

theorem roundedAdd_total [DecidableEq R] {L : Lapack R} {A B : LowRank R} (hA : A.WF) (hB : B.WF)
    (h0 : A.dim0 = B.dim0) (h1 : A.dim1 = B.dim1)
    (hk : ∀ (k : Nat) (s : Nat → R),
      k = min (min A.dim0 (A.S.cols + B.S.cols)) (min (A.S.cols + B.S.cols) A.dim1) →
      (if A.eps ≠ 0 then L.truncRank ⟨k, k, fun i j => if i = j then s i else 0⟩ A.eps
        else A.rank) ≤ k) : ∃ C, A.roundedAdd L B = .ok C := by
  have hvr := hA.vrows
  have hvr' := hB.vrows
  rw [roundedAdd, Dense.gemm_zero_eq rfl (hA.ucols.trans hA.srows.symm) rfl, except_bind_ok,
    Dense.gemm_zero_eq (by rw [hA.urows, hB.urows, h0]) (hB.ucols.trans hB.srows.symm) rfl,
    except_bind_ok]
  simp only []
  rw [Lapack.qrInto_eq L rfl rfl rfl, except_bind_ok, Dense.copyTo_eq le_rfl le_rfl, except_bind_ok,
    Dense.copyTo_eq le_rfl (by rw [hA.vcols, hB.vcols, h1]), except_bind_ok,
    Lapack.rqInto_eq L rfl rfl rfl, except_bind_ok,
    Dense.gemmNew_ff_eq (by simp only [Dense.hcat, Dense.vcat, hvr, hvr']), except_bind_ok]
  generalize hRR : (⟨_, _, mm _ _ _⟩ : Dense R) = RR
  have hr : RR.rows = min A.dim0 (A.S.cols + B.S.cols) := by
    rw [← hRR]; simp only [Dense.hcat, hA.urows]
  have hc : RR.cols = min (A.S.cols + B.S.cols) A.dim1 := by
    rw [← hRR]; simp only [Dense.vcat, hA.vcols, hvr, hvr']
  have hk' := hk (min RR.rows RR.cols) (L.svd RR).2.1 (by rw [hr, hc])
  rw [Dense.resize_eq (by exact hk') (by exact hk'), except_bind_ok,
    Dense.resize_eq le_rfl (by exact hk'), except_bind_ok,
    Dense.gemmNew_ff_eq (by rw [← hRR]; rfl), except_bind_ok,
    Dense.resize_eq (by exact hk') le_rfl, except_bind_ok,
    Dense.gemmNew_ff_eq (by rw [← hRR]; rfl), except_bind_ok]
  exact ⟨_, rfl⟩

theorem fastAdd_total [DecidableEq R] {L : Lapack R} {A B : LowRank R} (hA : A.WF) (hAs : A.Square)
    (hB : B.WF) (h0 : A.dim0 = B.dim0) (h1 : A.dim1 = B.dim1) (he : A.eps = 0)
    (hr : B.rank ≤ B.dim0) (hc : B.S.cols ≤ B.dim1) : ∃ C, A.fastAdd L B = .ok C := by
  have a1 : A.U.rows = B.U.rows := by rw [hA.urows, hB.urows, h0]
  have b1 : B.V.cols = A.V.cols := by rw [hA.vcols, hB.vcols, h1]
  have c1 : min B.U.rows B.U.cols = B.S.rows := by rw [hB.urows, hB.ucols, hB.srows]; omega
  have c3 : min B.V.rows B.V.cols = B.S.cols := by rw [hB.vrows, hB.vcols]; omega
  have hau : A.U.cols = A.S.rows := hA.ucols.trans hA.srows.symm
  have hbu : B.U.cols = B.S.rows := hB.ucols.trans hB.srows.symm
  have hav := hA.vrows
  have hbv := hB.vrows
  simp only [fastAdd, he, ne_eq, not_true_eq_false, if_false]
  rw [Dense.gemmNew_tf_eq (by exact a1), except_bind_ok, Dense.gemm_ff_eq (by exact a1) (by exact rfl) (by exact rfl), except_bind_ok,
    Lapack.qrInto_eq L rfl rfl rfl, except_bind_ok, Dense.copyTo_eq (by exact le_rfl) (by exact le_rfl), except_bind_ok,
    Dense.copyTo_eq (by exact le_of_eq a1) (by exact le_rfl), except_bind_ok,
    Dense.gemmNew_ft_eq (by exact b1), except_bind_ok, Dense.gemm_ff_eq (by exact rfl) (by exact rfl) (by exact b1.symm), except_bind_ok,
    Lapack.rqInto_eq L rfl rfl rfl, except_bind_ok, Dense.copyTo_eq (by exact le_rfl) (by exact le_rfl), except_bind_ok,
    Dense.copyTo_eq (by exact le_rfl) (by exact le_of_eq b1.symm), except_bind_ok,
    Dense.gemmNew_ff_eq (by exact hbu), except_bind_ok, Dense.gemmNew_ff_eq (by exact hbu), except_bind_ok,
    Dense.copyTo_eq (by exact le_rfl) (by exact le_rfl), except_bind_ok,
    Dense.gemm_ff_eq (by exact hau) (by exact hbv.symm) (by exact hav), except_bind_ok,
    Dense.gemm_zero_eq (by exact hau) (by exact hbv.symm) (by exact c3), except_bind_ok,
    Dense.gemm_zero_eq (by exact c1) (by exact hbv.symm) (by exact hav), except_bind_ok,
    Dense.gemm_zero_eq (by exact c1) (by exact hbv.symm) (by exact c3), except_bind_ok]
  generalize hM : Dense.vcat _ _ = M
  have mr : M.rows = A.rank + B.S.rows := by rw [← hM, ← hA.srows]; rfl
  have mc : M.cols = A.rank + B.S.cols := by rw [← hM, ← hAs]; rfl
  have hk' : A.rank ≤ min M.rows M.cols := by omega
  rw [Dense.resize_eq (by exact hk') (by exact hk'), except_bind_ok,
    Dense.resize_eq le_rfl (by exact hk'), except_bind_ok,
    Dense.gemmNew_ff_eq (by
      show A.U.cols + min B.U.rows B.U.cols = M.rows
      rw [mr, c1, hA.ucols]), except_bind_ok,
    Dense.resize_eq (by exact hk') le_rfl, except_bind_ok,
    Dense.gemmNew_ff_eq (by
      show M.cols = A.V.rows + min B.V.rows B.V.cols
      rw [mc, c3, hav, hAs]), except_bind_ok]
  exact ⟨_, rfl⟩

/-! ### randomized compression -/

end LowRank

namespace Lapack

/-- The sample `A * RN` taken by `rsvd`. -/
def sample (L : Lapack R) (A : Dense R) (k : Nat) : Dense R :=
  ⟨A.rows, k, mm A.cols A.val (L.random A A.cols k)⟩

/-- The matrix `Q^T A` in `rsvd`. -/
def projected (L : Lapack R) (A : Dense R) (k : Nat) : Dense R :=
  ⟨k, A.cols, mm A.rows (fun i j => (L.qr (L.sample A k) k).1 j i) A.val⟩

theorem rsvd_eq (L : Lapack R) (A : Dense R) (k : Nat) :
    L.rsvd A k = .ok
      (⟨A.rows, min k A.cols, mm k (L.qr (L.sample A k) k).1 (L.svd (L.projected A k)).1⟩,
       ⟨min k A.cols, min k A.cols, fun i j => if i = j then (L.svd (L.projected A k)).2.1 i else 0⟩,
       ⟨min k A.cols, A.cols, (L.svd (L.projected A k)).2.2⟩) := by
  rw [rsvd, Dense.gemmNew_ff_eq (by rfl), except_bind_ok, qrInto_eq L rfl rfl rfl, except_bind_ok,
    Dense.gemmNew_tf_eq (by rfl), except_bind_ok]
  simp only []
  rw [Dense.gemmNew_ff_eq (by rfl), except_bind_ok]
  rfl

/-- The left vectors computed by `rsvd`. -/
def rsvdU (L : Lapack R) (A : Dense R) (k : Nat) : Nat → Nat → R :=
  mm k (L.qr (L.sample A k) k).1 (L.svd (L.projected A k)).1

theorem rsvd_terms {L : Lapack R} (hL : L.Factors) (A : Dense R) (k : Nat) {i j : Nat}
    (hj : j < A.cols) :
    terms (min k A.cols) (L.rsvdU A k) (L.svd (L.projected A k)).2.1 (L.svd (L.projected A k)).2.2 i j =
      mm k (L.qr (L.sample A k) k).1 (L.projected A k).val i j := by
  have : terms (min k A.cols) (L.rsvdU A k) (L.svd (L.projected A k)).2.1
      (L.svd (L.projected A k)).2.2 i j = mm k (L.qr (L.sample A k) k).1
      (terms (min k A.cols) (L.svd (L.projected A k)).1 (L.svd (L.projected A k)).2.1
        (L.svd (L.projected A k)).2.2) i j := by
    simp only [terms, rsvdU, mm, Finset.mul_sum, Finset.sum_mul]
    rw [Finset.sum_comm]
    exact Finset.sum_congr rfl (fun _ _ => Finset.sum_congr rfl (fun _ _ => by ring))
  rw [this]
  exact mm_congr (fun _ _ => rfl) (fun a ha => hL.svd (L.projected A k) a ha j hj)

theorem ofRank_total (L : Lapack R) {A : Dense R} {rank : Nat} (hr : rank ≤ min A.rows A.cols) :
    ∃ C, L.ofRank A rank = .ok C := by
  have hk : rank ≤ min (min (min (rank + 5) A.rows) A.cols) A.cols := by omega
  rw [ofRank, rsvd_eq, except_bind_ok, Dense.resize_eq (by exact le_rfl) (by exact hk), except_bind_ok,
    Dense.resize_eq (by exact hk) (by exact le_rfl), except_bind_ok,
    Dense.resize_eq (by exact hk) (by exact hk), except_bind_ok]
  exact ⟨_, rfl⟩

theorem ofRank_ok {L : Lapack R} {A : Dense R} {rank : Nat} {C : LowRank R}
    (h : L.ofRank A rank = .ok C) :
    rank ≤ min A.rows A.cols ∧ C.WF ∧ C.Square ∧ C.dim0 = A.rows ∧ C.dim1 = A.cols ∧ C.rank = rank ∧
    C.eps = 0 ∧ C.Keeps (L.rsvdU A (min (min (rank + 5) A.rows) A.cols))
      (L.svd (L.projected A (min (min (rank + 5) A.rows) A.cols))).2.1
      (L.svd (L.projected A (min (min (rank + 5) A.rows) A.cols))).2.2 := by
  simp only [ofRank, rsvd_eq, except_bind_ok, except_bind_eq_ok] at h
  obtain ⟨U, hU, V, hV, S, hS, h⟩ := h
  obtain ⟨-, e2, rfl⟩ := Dense.resize_ok hU
  obtain ⟨-, -, rfl⟩ := Dense.resize_ok hV
  obtain ⟨e1, -, rfl⟩ := Dense.resize_ok hS
  have hC := (Except.ok.inj h).symm
  simp only at e1
  refine ⟨by omega, ?_⟩
  rw [hC]
  exact ⟨⟨rfl, rfl, rfl, rfl, rfl⟩, rfl, rfl, rfl, rfl, rfl, ⟨fun _ _ _ _ => rfl, fun _ _ _ _ => rfl,
    fun _ _ _ _ => rfl⟩⟩

theorem ofEps_total (L : Lapack R) (A : Dense R) (eps : R) : ∃ C, L.ofEps A eps = .ok C := by
  rw [ofEps, rqInto_eq L rfl rfl rfl]
  exact ⟨_, rfl⟩

theorem ofEps_ok {L : Lapack R} {A : Dense R} {eps : R} {C : LowRank R} (h : L.ofEps A eps = .ok C) :
    C.WF ∧ C.Square ∧ C.dim0 = A.rows ∧ C.dim1 = A.cols ∧ C.rank = (L.geqp3 A eps).1 ∧ C.eps = eps ∧
    (L.Factors → (L.geqp3 A eps).1 ≤ A.cols → ∀ i, ∀ j < A.cols,
      C.entry i j = mm (L.geqp3 A eps).1 (L.geqp3 A eps).2.1 (L.geqp3 A eps).2.2 i j) := by
  simp only [ofEps, except_bind_eq_ok] at h
  obtain ⟨f, hf, h⟩ := h
  obtain ⟨-, -, -, rfl⟩ := rqInto_ok hf
  have hC := (Except.ok.inj h).symm
  rw [hC]
  refine ⟨⟨rfl, rfl, rfl, rfl, rfl⟩, rfl, rfl, rfl, rfl, rfl, fun hL hr i j hj => ?_⟩
  rw [Mat.LowRank_entry_mm, mm_assoc]
  refine mm_congr (fun _ _ => rfl) (fun a ha => ?_)
  have := hL.rq ⟨(L.geqp3 A eps).1, A.cols, (L.geqp3 A eps).2.2⟩ a ha j hj
  simp only [min_eq_left hr] at this
  exact this

theorem ofHier_ok [DecidableEq R] {L : Lapack R} {fuel : Nat} {A : Mat R} {rank : Nat} {C : LowRank R}
    (h : L.ofHier fuel A rank = .ok C) :
    C.WF ∧ C.Square ∧ C.rank = rank ∧ ∃ br bc blk, A = .hier br bc blk ∧ A.nCols = bc ∧
      C.dim0 = br ∧ C.dim1 = bc := by
  cases A with
  | dense => cases h
  | lowRank => cases h
  | empty => cases h
  | hier br bc blk =>
    simp only [ofHier, except_bind_eq_ok] at h
    obtain ⟨f, hf, U, hU, V, hV, S, hS, h⟩ := h
    obtain ⟨-, -, rfl⟩ := Dense.resize_ok hU
    obtain ⟨-, -, rfl⟩ := Dense.resize_ok hV
    obtain ⟨-, -, rfl⟩ := Dense.resize_ok hS
    have hC := (Except.ok.inj h).symm
    rw [hC]
    refine ⟨⟨rfl, rfl, rfl, rfl, rfl⟩, rfl, rfl, br, bc, blk, rfl, ?_, rfl, rfl⟩
    simp only [rsvdHier, except_bind_eq_ok] at hf
    obtain ⟨Y, hY, -⟩ := hf
    cases fuel with
    | zero => cases hY
    | succ n =>
      simp only [Mat.gemmNew, Mat.gemmBoth, except_bind_eq_ok, assertM_eq_ok, decide_eq_true_eq] at hY
      obtain ⟨-, hY, -⟩ := hY
      exact hY

end Lapack

namespace LowRank

/-! ### naive addition -/

theorem toDense_row2 (a b : Dense R) (h : a.rows = b.rows) :
    ∃ D, (Mat.hier 1 2 (fun _ j => .dense (if j = 0 then a else b))).toDense = .ok D ∧
      D.rows = a.rows ∧ D.cols = a.cols + b.cols ∧
      (∀ i < a.rows, ∀ j < a.cols, D.val i j = a.val i j) ∧
      (∀ i < a.rows, ∀ j < b.cols, D.val i (a.cols + j) = b.val i j) := by
  obtain ⟨D, hD, r, c, e⟩ := Mat.toDense_ok (Mat.hier 1 2 (fun _ j => .dense (if j = 0 then a else b))) (by
    refine ⟨by omega, by omega, fun i hi j hj => ⟨trivial, ?_, ?_⟩⟩
    · by_cases hj0 : j = 0
      · simp [hj0, Mat.nRows]
      · simp [hj0, Mat.nRows, h]
    · rfl)
  have hr : (Mat.hier 1 2 (fun _ j => Mat.dense (if j = 0 then a else b))).nRows = a.rows := by
    simp [Mat.nRows]
  have hc : (Mat.hier 1 2 (fun _ j => Mat.dense (if j = 0 then a else b))).nCols = a.cols + b.cols := by
    simp [Mat.nCols, Finset.sum_range_succ]
  refine ⟨D, hD, by rw [r, hr], by rw [c, hc], fun i hi j hj => ?_, fun i hi j hj => ?_⟩
  · rw [e i (by rw [hr]; exact hi) j (by rw [hc]; omega)]
    have := Mat.entry_block (br := 1) (bc := 2) (blk := fun _ j => Mat.dense (if j = 0 then a else b))
      (a := 0) (b := 0) (r := i) (s := j) (by omega) (by omega) hi hj
    simpa [psum, Mat.entry] using this
  · rw [e i (by rw [hr]; exact hi) _ (by rw [hc]; omega)]
    have := Mat.entry_block (br := 1) (bc := 2) (blk := fun _ j => Mat.dense (if j = 0 then a else b))
      (a := 0) (b := 1) (r := i) (s := j) (by omega) (by omega) hi hj
    rw [show psum (fun a' => ((fun _ j => Mat.dense (if j = 0 then a else b)) a' 0).nRows) 0 = 0 from rfl,
      show psum (fun b' => ((fun _ j => Mat.dense (if j = 0 then a else b)) 0 b').nCols) 1 = a.cols by
        simp [psum, Mat.nCols], Nat.zero_add] at this
    rw [this]
    rfl

theorem toDense_col2 (a b : Dense R) (h : a.cols = b.cols) :
    ∃ D, (Mat.hier 2 1 (fun i _ => .dense (if i = 0 then a else b))).toDense = .ok D ∧
      D.rows = a.rows + b.rows ∧ D.cols = a.cols ∧
      (∀ i < a.rows, ∀ j < a.cols, D.val i j = a.val i j) ∧
      (∀ i < b.rows, ∀ j < a.cols, D.val (a.rows + i) j = b.val i j) := by
  obtain ⟨D, hD, r, c, e⟩ := Mat.toDense_ok (Mat.hier 2 1 (fun i _ => .dense (if i = 0 then a else b))) (by
    refine ⟨by omega, by omega, fun i hi j hj => ⟨trivial, rfl, ?_⟩⟩
    by_cases hi0 : i = 0
    · simp [hi0, Mat.nCols]
    · simp [hi0, Mat.nCols, h])
  have hr : (Mat.hier 2 1 (fun i _ => Mat.dense (if i = 0 then a else b))).nRows = a.rows + b.rows := by
    simp [Mat.nRows, Finset.sum_range_succ]
  have hc : (Mat.hier 2 1 (fun i _ => Mat.dense (if i = 0 then a else b))).nCols = a.cols := by
    simp [Mat.nCols]
  refine ⟨D, hD, by rw [r, hr], by rw [c, hc], fun i hi j hj => ?_, fun i hi j hj => ?_⟩
  · rw [e i (by rw [hr]; omega) j (by rw [hc]; omega)]
    have := Mat.entry_block (br := 2) (bc := 1) (blk := fun i _ => Mat.dense (if i = 0 then a else b))
      (a := 0) (b := 0) (r := i) (s := j) (by omega) (by omega) hi hj
    simpa [psum, Mat.entry] using this
  · rw [e _ (by rw [hr]; omega) j (by rw [hc]; omega)]
    have := Mat.entry_block (br := 2) (bc := 1) (blk := fun i _ => Mat.dense (if i = 0 then a else b))
      (a := 1) (b := 0) (r := i) (s := j) (by omega) (by omega) hi hj
    rw [show psum (fun a' => ((fun i _ => Mat.dense (if i = 0 then a else b)) a' 0).nRows) 1 = a.rows by
        simp [psum, Mat.nRows],
      show psum (fun b' => ((fun i _ => Mat.dense (if i = 0 then a else b)) 0 b').nCols) 0 = 0 from rfl,
      Nat.zero_add] at this
    rw [this]
    rfl

theorem toDense_diag2 (a b : Dense R) (p q : Nat) (hp : a.rows = p) (hp' : a.cols = p)
    (hq : b.rows = q) (hq' : b.cols = q) :
    ∃ D, (Mat.hier 2 2 (fun i j => .dense (
        if i = 0 then (if j = 0 then a else Dense.zero p q)
        else (if j = 0 then Dense.zero q p else b)))).toDense = .ok D ∧
      D.rows = p + q ∧ D.cols = p + q ∧
      (∀ i < p, ∀ j < p, D.val i j = a.val i j) ∧ (∀ i < p, ∀ j < q, D.val i (p + j) = 0) ∧
      (∀ i < q, ∀ j < p, D.val (p + i) j = 0) ∧ (∀ i < q, ∀ j < q, D.val (p + i) (p + j) = b.val i j) := by
  generalize hblk : (fun i j => Mat.dense (
        if i = 0 then (if j = 0 then a else Dense.zero p q)
        else (if j = 0 then Dense.zero q p else b))) = blk
  have b00 : blk 0 0 = .dense a := by rw [← hblk]; rfl
  have b01 : blk 0 1 = .dense (Dense.zero p q) := by rw [← hblk]; rfl
  have b10 : blk 1 0 = .dense (Dense.zero q p) := by rw [← hblk]; rfl
  have b11 : blk 1 1 = .dense b := by rw [← hblk]; rfl
  have hr : (Mat.hier 2 2 blk).nRows = p + q := by
    simp [Mat.nRows, Finset.sum_range_succ, b00, b10, hp, Dense.zero]
  have hc : (Mat.hier 2 2 blk).nCols = p + q := by
    simp [Mat.nCols, Finset.sum_range_succ, b00, b01, hp', Dense.zero]
  obtain ⟨D, hD, r, c, e⟩ := Mat.toDense_ok (Mat.hier 2 2 blk) (by
    refine ⟨by omega, by omega, fun i hi j hj => ?_⟩
    have hi' : i = 0 ∨ i = 1 := by omega
    have hj' : j = 0 ∨ j = 1 := by omega
    rcases hi' with rfl | rfl <;> rcases hj' with rfl | rfl <;>
      simp [b00, b01, b10, b11, Mat.nRows, Mat.nCols, Dense.zero, Mat.WF, hp, hp', hq, hq'])
  have P : ∀ x y i j, x < 2 → y < 2 → i < (blk x 0).nRows → j < (blk 0 y).nCols →
      psum (fun a => (blk a 0).nRows) x + i < p + q → psum (fun b => (blk 0 b).nCols) y + j < p + q →
      D.val (psum (fun a => (blk a 0).nRows) x + i) (psum (fun b => (blk 0 b).nCols) y + j) =
        (blk x y).entry i j := by
    intro x y i j hx hy hi hj h1 h2
    rw [e _ (by rw [hr]; exact h1) _ (by rw [hc]; exact h2)]
    exact Mat.entry_block hx hy hi hj
  have s0 : psum (fun a => (blk a 0).nRows) 1 = p := by simp [psum, b00, Mat.nRows, hp]
  have s1 : psum (fun a => (blk 0 a).nCols) 1 = p := by simp [psum, b00, Mat.nCols, hp']
  have z0 : psum (fun a => (blk a 0).nRows) 0 = 0 := by simp [psum]
  have z1 : psum (fun a => (blk 0 a).nCols) 0 = 0 := by simp [psum]
  have n0 : (blk 0 0).nRows = p := by simp [b00, Mat.nRows, hp]
  have n1 : (blk 1 0).nRows = q := by simp [b10, Mat.nRows, Dense.zero]
  have m0 : (blk 0 0).nCols = p := by simp [b00, Mat.nCols, hp']
  have m1 : (blk 0 1).nCols = q := by simp [b01, Mat.nCols, Dense.zero]
  refine ⟨D, hD, by rw [r, hr], by rw [c, hc], fun i hi j hj => ?_, fun i hi j hj => ?_,
    fun i hi j hj => ?_, fun i hi j hj => ?_⟩
  · have := P 0 0 i j (by omega) (by omega) (by omega) (by omega) (by omega) (by omega)
    rwa [z0, z1, b00, Nat.zero_add, Nat.zero_add] at this
  · have := P 0 1 i j (by omega) (by omega) (by omega) (by omega) (by omega) (by omega)
    rwa [z0, s1, b01, Nat.zero_add] at this
  · have := P 1 0 i j (by omega) (by omega) (by omega) (by omega) (by omega) (by omega)
    rwa [s0, z1, b10, Nat.zero_add] at this
  · have := P 1 1 i j (by omega) (by omega) (by omega) (by omega) (by omega) (by omega)
    rwa [s0, s1, b11] at this

theorem naiveAdd_merge (L : Lapack R) {A B : LowRank R} (hA : A.WF) (hAs : A.Square) (hB : B.WF)
    (hBs : B.Square) (h0 : A.dim0 = B.dim0) (h1 : A.dim1 = B.dim1)
    (hr : A.rank + B.rank < min A.dim0 A.dim1) :
    ∃ C, A.naiveAdd L B = .ok C ∧ C.WF ∧ C.Square ∧ C.dim0 = A.dim0 ∧ C.dim1 = A.dim1 ∧
      C.rank = A.rank + B.rank ∧ C.eps = A.eps ∧
      ∀ i < A.dim0, ∀ j < A.dim1, C.entry i j = A.entry i j + B.entry i j := by
  obtain ⟨U, hU, ur, uc, u0, u1⟩ := toDense_row2 A.U B.U (by rw [hA.urows, hB.urows, h0])
  obtain ⟨V, hV, vr, vc, v0, v1⟩ := toDense_col2 A.V B.V (by rw [hA.vcols, hB.vcols, h1])
  obtain ⟨S, hS, sr, sc, s00, s01, s10, s11⟩ := toDense_diag2 A.S B.S A.rank B.rank hA.srows hAs
    hB.srows hBs
  refine ⟨{ A with rank := A.rank + B.rank, U := U, S := S, V := V }, ?_, ?_, sc, rfl, rfl, rfl, rfl, ?_⟩
  · rw [naiveAdd, if_neg (by omega), hU, except_bind_ok, hS, except_bind_ok, hV, except_bind_ok]
  · refine ⟨by rw [ur]; exact hA.urows, by rw [uc, hA.ucols, hB.ucols], sr, ?_, by rw [vc]; exact hA.vcols⟩
    rw [vr, hA.vrows, hB.vrows, hAs, hBs, sc]
  · intro i hi j hj
    rw [LowRank.entry, LowRank.entry, LowRank.entry]
    simp only
    rw [sc, sr, hAs, hA.srows, hBs, hB.srows, sum_range_split]
    rw [← hA.urows] at hi
    rw [← hA.vcols] at hj
    congr 1
    · refine Finset.sum_congr rfl (fun b hb => ?_)
      have hb := mem_range.1 hb
      rw [v0 b (by rw [hA.vrows, hAs]; exact hb) j hj, sum_range_split]
      congr 1
      rw [Finset.sum_eq_zero (s := range B.rank), add_zero]
      · refine Finset.sum_congr rfl (fun a ha => ?_)
        have ha := mem_range.1 ha
        rw [u0 i hi a (by rw [hA.ucols]; exact ha), s00 a ha b hb]
      · intro a ha
        rw [s10 a (mem_range.1 ha) b hb, mul_zero]
    · refine Finset.sum_congr rfl (fun b hb => ?_)
      have hb := mem_range.1 hb
      have e := v1 b (by rw [hB.vrows, hBs]; exact hb) j hj
      rw [hA.vrows, hAs] at e
      rw [e, sum_range_split]
      congr 1
      rw [Finset.sum_eq_zero (s := range A.rank), zero_add]
      · refine Finset.sum_congr rfl (fun a ha => ?_)
        have ha := mem_range.1 ha
        have e := u1 i hi a (by rw [hB.ucols]; exact ha)
        rw [hA.ucols] at e
        rw [e, s11 a ha b hb]
      · intro a ha
        rw [s01 a (mem_range.1 ha) b hb, mul_zero]

/-- The merging branch of naive addition only returns if the middle factor of the
added matrix is square. -/
theorem naiveAdd_square (L : Lapack R) {A B C : LowRank R} (hB : B.WF)
    (hr : A.rank + B.rank < min A.dim0 A.dim1) (h : A.naiveAdd L B = .ok C) : B.Square := by
  rw [naiveAdd, if_neg (by omega)] at h
  simp only [except_bind_eq_ok] at h
  obtain ⟨-, -, S, hS, -⟩ := h
  rw [Mat.toDense, Mat.fillDenseFrom] at hS
  simp only [except_bind_eq_ok] at hS
  obtain ⟨BH, hBH, hS⟩ := hS
  simp only [Mat.splitLikeH, except_bind_eq_ok, Mat.splitOmm, Mat.splitDense] at hBH
  obtain ⟨-, -, -, -, hBH⟩ := hBH
  split at hBH
  · cases hBH
    simp only [except_bind_eq_ok] at hS
    obtain ⟨g, hg, -⟩ := hS
    have := collect2_ok hg 1 (by omega) 1 (by omega)
    simp only [Mat.asDense, Mat.fillDenseFrom, except_bind_ok, except_bind_eq_ok, assertM_eq_ok,
      decide_eq_true_eq] at this
    obtain ⟨-, -, -, e, -⟩ := this
    rw [LowRank.Square, ← hB.srows]
    simpa [Dense.sub, Mat.rangeAt, IndexRange.splitLike, Mat.blockWidths, IndexRange.splitLikeFrom,
      List.range_succ, Mat.nCols, Dense.zero, hB.srows] using e
  · cases hBH

theorem naiveAdd_full (L : Lapack R) {A B : LowRank R} (hA : A.WF) (hB : B.WF)
    (h0 : A.dim0 = B.dim0) (h1 : A.dim1 = B.dim1) (hr : min A.dim0 A.dim1 ≤ A.rank + B.rank) :
    ∃ D : Dense R, D.rows = A.dim0 ∧ D.cols = A.dim1 ∧
      (∀ i j, D.val i j = A.entry i j + B.entry i j) ∧ A.naiveAdd L B = L.ofRank D A.rank := by
  obtain ⟨a, ha, a0, a1, ea⟩ := Mat.LowRank_toDense_ok A hA
  obtain ⟨b, hb, b0, b1, eb⟩ := Mat.LowRank_toDense_ok B hB
  refine ⟨⟨a.rows, a.cols, fun i j => a.val i j + b.val i j⟩, a0, a1, fun i j => by simp [ea, eb], ?_⟩
  rw [naiveAdd, if_pos hr, ha, except_bind_ok, hb, except_bind_ok, Dense.add]
  have : a.rows = 0 ∨ a.cols = 0 ∨ (a.rows ≤ b.rows ∧ a.cols ≤ b.cols) := by
    right; right; omega
  simp [this, assertM]

/-! ### the library's operations fit -/

end LowRank

/-- Operations that handle every added matrix handle those with square middle
factor. -/
theorem LrOps.Fits.mono {o : LrOps R} (h : o.Fits False) (sq : Prop) : o.Fits sq :=
  ⟨fun A B C a b c _ => h.add A B C a b c (fun h => h.elim), h.ofRank, h.ofEps, h.ofHier⟩

theorem Lapack.ops_fits [DecidableEq R] (L : Lapack R) (mode : LraMode) (fuel : Nat) :
    (L.ops mode fuel).Fits False where
  add := by
    intro A B C hA hAs hB _ h0 h1 h
    cases mode with
    | naive =>
      by_cases hr : A.rank + B.rank < min A.dim0 A.dim1
      · obtain ⟨C', h', p⟩ := LowRank.naiveAdd_merge L hA hAs hB
          (LowRank.naiveAdd_square L hB hr h) h0 h1 hr
        have e : A.naiveAdd L B = .ok C := h
        rw [h'] at e
        cases e
        exact ⟨p.1, p.2.1, p.2.2.1, p.2.2.2.1⟩
      · obtain ⟨D, d0, d1, -, h'⟩ := LowRank.naiveAdd_full L hA hB h0 h1 (by omega)
        have e : A.naiveAdd L B = .ok C := h
        rw [h'] at e
        have := Lapack.ofRank_ok e
        exact ⟨this.2.1, this.2.2.1, by rw [this.2.2.2.1, d0], by rw [this.2.2.2.2.1, d1]⟩
    | rounded =>
      obtain ⟨-, -, k, u, s, v, r, -⟩ := LowRank.roundedAdd_ok hA hB h1 h
      exact ⟨r.wf, r.sqr, r.dim0, r.dim1⟩
    | fast =>
      by_cases he : A.eps = 0
      · obtain ⟨-, -, -, k, u, s, v, r, -⟩ := LowRank.fastAdd_ok hA hAs hB h1 he h
        exact ⟨r.wf, r.sqr, r.dim0, r.dim1⟩
      · have e : A.fastAdd L B = .ok C := h
        rw [LowRank.fastAdd, if_pos he] at e
        obtain ⟨-, -, k, u, s, v, r, -⟩ := LowRank.roundedAdd_ok hA hB h1 e
        exact ⟨r.wf, r.sqr, r.dim0, r.dim1⟩
  ofRank := by
    intro D r C h
    have := Lapack.ofRank_ok h
    exact ⟨this.2.1, this.2.2.1, this.2.2.2.1, this.2.2.2.2.1⟩
  ofEps := by
    intro D e C h
    have := Lapack.ofEps_ok h
    exact ⟨this.1, this.2.1, this.2.2.1, this.2.2.2.1⟩
  ofHier := by
    intro M r C _ h
    have := Lapack.ofHier_ok h
    exact ⟨this.1, this.2.1⟩

end Verif
