import Verif.Lemmas.ErrLu
import Verif.Lemmas.GetrfTotal

set_option linter.unusedSectionVars false
set_option linter.unusedVariables false

/-
Diagonal dominance with a margin survives elimination with truncation errors.
-/

namespace Verif
open Finset

section
variable {K : Type} [Field K] [LinearOrder K] [IsStrictOrderedRing K]

/-- Diagonal dominance of the columns of the rows and columns `k, ..., n-1` by more than `γ`. -/
def ColGap (γ : K) (k n : Nat) (M : Nat → Nat → K) : Prop :=
  ∀ j, k ≤ j → j < n → ∑ i ∈ (Ico k n).erase j, |M i j| + γ < |M j j|

theorem ColGap.dom {γ : K} (hγ : 0 ≤ γ) {k n : Nat} {M : Nat → Nat → K} (h : ColGap γ k n M) : ColDom k n M :=
  fun j hk hn => by have := h j hk hn; linarith

theorem ColGap.congr {γ : K} {k n : Nat} {M N : Nat → Nat → K} (h : ColGap γ k n M)
    (e : ∀ i, k ≤ i → i < n → ∀ j, k ≤ j → j < n → M i j = N i j) : ColGap γ k n N := by
  intro j hk hn
  have := h j hk hn
  rw [← e j hk hn j hk hn, ← sum_congr rfl (fun i hi => ?_)]
  · exact this
  · have hi := mem_of_mem_erase hi
    rw [mem_Ico] at hi
    rw [e i hi.1 hi.2 j hk hn]

theorem ColGap.mono {γ γ' : K} (hγ : γ' ≤ γ) {k n : Nat} {M : Nat → Nat → K} (h : ColGap γ k n M) :
    ColGap γ' k n M := fun j hk hn => by have := h j hk hn; linarith

/-- Submatrices on the diagonal. -/
theorem ColGap.sub {γ : K} {k n o h : Nat} {M : Nat → Nat → K} (hd : ColGap γ k n M) (ho : k ≤ o)
    (hn : o + h ≤ n) : ColGap γ 0 h (fun x y => M (o + x) (o + y)) := by
  intro j _ hj
  refine lt_of_le_of_lt (add_le_add_left ?_ _) (hd (o + j) (by omega) (by omega))
  have inj : Set.InjOn (fun x => o + x) ((Ico 0 h).erase j : Finset Nat) := by
    intro a _ b _ e
    have : o + a = o + b := e
    omega
  rw [← sum_image (g := fun x => o + x) (f := fun i => |M i (o + j)|) inj]
  refine sum_le_sum_of_subset_of_nonneg (fun i hi => ?_) (fun _ _ _ => abs_nonneg _)
  rw [mem_image] at hi
  obtain ⟨x, hx, rfl⟩ := hi
  rw [mem_erase, mem_Ico] at hx ⊢
  omega

/-- A small change of every entry. -/
theorem ColGap.perturb {γ ε : K} {n : Nat} {M N : Nat → Nat → K} (h : ColGap γ 0 n M)
    (e : ∀ i < n, ∀ j < n, |N i j - M i j| ≤ ε) : ColGap (γ - n * ε) 0 n N := by
  intro j hk hn
  have h0 := h j hk hn
  have h1 : ∑ i ∈ (Ico 0 n).erase j, |N i j| ≤ ∑ i ∈ (Ico 0 n).erase j, (|M i j| + ε) := by
    refine sum_le_sum (fun i hi => ?_)
    have hi := mem_of_mem_erase hi
    rw [mem_Ico] at hi
    have := e i hi.2 j hn
    have := abs_sub_abs_le_abs_sub (N i j) (M i j)
    linarith
  have hc : ((Ico 0 n).erase j).card = n - 1 := by
    rw [card_erase_of_mem (by rw [mem_Ico]; omega), Nat.card_Ico, Nat.sub_zero]
  rw [sum_add_distrib, sum_const, hc, nsmul_eq_mul] at h1
  have h2 := e j hn j hn
  have h3 := abs_sub_abs_le_abs_sub (M j j) (N j j)
  rw [abs_sub_comm] at h3
  have h4 : ((n - 1 : Nat) : K) + 1 = n := by
    have : n - 1 + 1 = n := by omega
    exact_mod_cast this
  have h5 : (n : K) * ε = ((n - 1 : Nat) : K) * ε + ε := by rw [← h4]; ring
  linarith

theorem ColGap.step {γ : K} (hγ : 0 ≤ γ) {k n : Nat} {M : Nat → Nat → K} (h : ColGap γ k n M) :
    ColGap γ (k + 1) n (fun i j => M i j - M i k * M k j / M k k) := by
  intro j hk hn
  have ha : M k k ≠ 0 := (h.dom hγ).pivot le_rfl (by omega)
  have ha' : 0 < |M k k| := abs_pos.2 ha
  have hk' := h k le_rfl (by omega)
  have hj' := h j (by omega) hn
  set T := (Ico (k + 1) n).erase j with hT
  have s1 : (Ico k n).erase k = insert j T := by
    ext x
    simp only [hT, mem_erase, mem_insert, mem_Ico]
    omega
  have s2 : (Ico k n).erase j = insert k T := by
    ext x
    simp only [hT, mem_erase, mem_insert, mem_Ico]
    omega
  have n1 : j ∉ T := by simp [hT]
  have n2 : k ∉ T := by simp [hT]
  rw [s1, sum_insert n1] at hk'
  rw [s2, sum_insert n2] at hj'
  have b1 : ∑ i ∈ T, |M i j - M i k * M k j / M k k| ≤
      ∑ i ∈ T, |M i j| + (∑ i ∈ T, |M i k|) * (|M k j| / |M k k|) := by
    rw [sum_mul, ← sum_add_distrib]
    refine sum_le_sum (fun i _ => ?_)
    refine (abs_sub _ _).trans ?_
    rw [abs_div, abs_mul, mul_div_assoc]
  have b2 : (∑ i ∈ T, |M i k|) * (|M k j| / |M k k|) ≤ (|M k k| - |M j k|) * (|M k j| / |M k k|) :=
    mul_le_mul_of_nonneg_right (by linarith) (div_nonneg (abs_nonneg _) (abs_nonneg _))
  have b3 : (|M k k| - |M j k|) * (|M k j| / |M k k|) = |M k j| - |M j k * M k j / M k k| := by
    rw [abs_div, abs_mul]
    field_simp
  have b4 : |M j j| - |M j k * M k j / M k k| ≤ |M j j - M j k * M k j / M k k| := abs_sub_abs_le_abs_sub _ _
  show _ < |M j j - M j k * M k j / M k k|
  linarith

theorem ColGap.elim {γ : K} (hγ : 0 ≤ γ) {n : Nat} {M : Nat → Nat → K} (h : ColGap γ 0 n M) (k : Nat) :
    ColGap γ k n (elim M k) := by
  induction k with
  | zero => exact h
  | succ k ih => exact ih.step hγ

/-- Changing the remaining matrix is changing the matrix. -/
theorem elim_add {F E : Nat → Nat → K} {k : Nat} (hE : ∀ i j, i < k ∨ j < k → E i j = 0) :
    ∀ m ≤ k, ∀ i j, elim (fun i j => F i j + E i j) m i j = elim F m i j + E i j := by
  intro m
  induction m with
  | zero => intro _ i j; rfl
  | succ m ih =>
    intro hm i j
    have I := ih (by omega)
    simp only [elim]
    rw [I i j, I i m, I m j, I m m, hE i m (by omega), hE m j (by omega), hE m m (by omega)]
    simp only [add_zero]
    ring

end

namespace Mat

variable {K : Type} [Field K] [LinearOrder K] [IsStrictOrderedRing K]

/-- The factors of a block, whatever they are the factors of, eliminate it. -/
theorem elim_factors {ex : Prop} {fl : Bool} {D L U l u : Mat K} (P : LuPost ex fl D L U)
    (hD : D.nRows = D.nCols) {N : Nat → Nat → K}
    (hN : ∀ i < D.nRows, ∀ j < D.nRows, N i j = prodEntry false false L U i j)
    (hz : ∀ l < D.nRows, elim N l l l ≠ 0) {i0 j0 x y : Nat} (hi0 : D.nRows ≤ i0) (hj0 : D.nRows ≤ j0)
    (hlc : l.nCols = D.nRows)
    (hl : ∀ t < D.nRows, N i0 t = prodEntry false false l U x t)
    (hu : ∀ t < D.nRows, N t j0 = prodEntry false false L u t y) :
    elim N D.nRows i0 j0 = N i0 j0 - prodEntry false false l u x y := by
  have lz : ∀ i < D.nRows, ∀ t < D.nRows, i < t → L.entry i t = 0 := by
    intro i hi t ht hit
    rw [P.low i hi t (by omega)]
    unfold triEntry
    rw [if_neg (by omega)]
    exact if_neg (by omega)
  have l1 : ∀ i < D.nRows, L.entry i i = 1 := by
    intro i hi
    rw [P.low i hi i (by omega)]
    simp [triEntry]
  have uz : ∀ t < D.nRows, ∀ j < D.nRows, j < t → U.entry t j = 0 := by
    intro t ht j hj hjt
    rw [P.up t ht j (by omega)]
    unfold triEntry
    rw [if_neg (by omega)]
    exact if_neg (by omega)
  have := elim_schur (M := N) (L := fun i t => if i < D.nRows then L.entry i t else l.entry x t)
    (U := fun t j => if j < D.nRows then U.entry t j else u.entry t y) (k := D.nRows)
    (P := fun i => i < D.nRows ∨ i = i0) (Q := fun j => j < D.nRows ∨ j = j0) (fun _ h => Or.inl h)
    (fun _ h => Or.inl h) hz ?_ ?_ D.nRows le_rfl i0 j0 (Or.inr rfl) (Or.inr rfl) hi0 hj0
  · rw [this, prodEntry_ff, hlc]
    congr 1
    refine sum_congr rfl (fun t _ => ?_)
    rw [if_neg (by omega), if_neg (by omega)]
  · rintro t ht j (hj | rfl) htj
    · simp only [ht, hj, if_true]
      rw [hN t ht j hj, prodEntry_ff, P.lcols, ← hD]
      exact sum_lowerTri ht (fun s => L.entry t s) (fun s => U.entry s j) (fun s hs hts => lz t ht s hs hts)
        (l1 t ht)
    · simp only [ht, if_true, if_neg (show ¬j < D.nRows by omega)]
      rw [hu t ht, prodEntry_ff, P.lcols, ← hD]
      exact sum_lowerTri ht (fun s => L.entry t s) (fun s => u.entry s y) (fun s hs hts => lz t ht s hs hts)
        (l1 t ht)
  · rintro t ht i (hi | rfl) hti
    · simp only [ht, hi, if_true]
      rw [hN i hi t ht, prodEntry_ff, P.lcols, ← hD]
      exact sum_upperTri ht (fun s => L.entry i s) (fun s => U.entry s t) (fun s hs hts => uz s hs t ht hts)
    · simp only [ht, if_true, if_neg (show ¬i < D.nRows by omega)]
      rw [hl t ht, prodEntry_ff, hlc]
      exact sum_upperTri ht (fun s => l.entry x s) (fun s => U.entry s t) (fun s hs hts => uz s hs t ht hts)

/-- State of the elimination after `m` steps: the remaining blocks are what exact
elimination leaves of a slightly different matrix. -/
structure LuPert (τ : K) (n : Nat) (A0 : Nat → Nat → Mat K) (m : Nat) (st : LuState K) : Prop where
  flag : st.2.2 = false
  ex : ∃ F : Nat → Nat → K,
    (∀ i < (Mat.hier n n A0).nRows, ∀ j < (Mat.hier n n A0).nRows,
      |F i j - (Mat.hier n n A0).entry i j| ≤ 2 * (psum (fun k => (A0 k 0).nRows) m : K) * τ) ∧
    ∀ i < n, ∀ j < n, m ≤ i → m ≤ j → ∀ x < (A0 i 0).nRows, ∀ y < (A0 j 0).nRows,
      (st.2.1 i j).entry x y = elim F (psum (fun k => (A0 k 0).nRows) m)
        (psum (fun k => (A0 k 0).nRows) i + x) (psum (fun k => (A0 k 0).nRows) j + y)

/-- One elimination step. -/
theorem getrfStep_pert {ex : Prop} {g : GemmT K} (hg : GemmOk ex False g) {τ : K} (hτ : 0 ≤ τ)
    (he : GemmErr τ g) {n : Nat}
    {A0 : Nat → Nat → Mat K} (hA : (Mat.hier n n A0).WF) (hF : (Mat.hier n n A0).LuFits)
    (hFl : (Mat.hier n n A0).Filled)
    {f : Mat K → Except Err (Mat K × Mat K × Bool)}
    (hf : ∀ A r, A.WF → A.Square → A.LuFits → f A = .ok r → LuPost ex r.2.2 A r.1 r.2.1)
    (hfe : ∀ A r, A.WF → A.Square → A.LuFits → A.Filled → f A = .ok r → LuErr τ r.2.2 A r.1 r.2.1)
    {su sl : Mat K → Mat K → Except Err (Mat K)}
    (hsu : ∀ A B B', A.WF → B.WF → B.Square → A.DiagSquare → TriFits .right A B → A.nRows = B.nCols →
      su A B = .ok B' → TrsmPost ex .right (triEntry .upper false A) A.nRows B B')
    (hsl : ∀ A B B', A.WF → B.WF → B.Square → A.DiagSquare → TriFits .left A B → A.nRows = B.nRows →
      sl A B = .ok B' → TrsmPost ex .left (triEntry .lower true A) A.nRows B B')
    (hsue : ∀ A B B', A.WF → B.WF → B.Square → A.DiagSquare → TriFits .right A B → A.nRows = B.nCols →
      A.Filled → B.Filled → su A B = .ok B' → ∀ i < B.nRows, ∀ j < B.nCols,
        |sideProd .right A.nRows (triEntry .upper false A) B' i j - B.entry i j| ≤ 2 * (A.nRows : K) * τ)
    (hsle : ∀ A B B', A.WF → B.WF → B.Square → A.DiagSquare → TriFits .left A B → A.nRows = B.nRows →
      A.Filled → B.Filled → sl A B = .ok B' → ∀ i < B.nRows, ∀ j < B.nCols,
        |sideProd .left A.nRows (triEntry .lower true A) B' i j - B.entry i j| ≤ 2 * (A.nRows : K) * τ)
    {i : Nat} (hi : i < n) {st st' : LuState K} (hI : LuInv ex n A0 i st)
    (hfp : ∀ A r, A.WF → A.Square → A.LuFits → A.Filled →
      ColGap (2 * (A.nRows : K) * A.nRows * τ) 0 A.nRows A.entry → f A = .ok r → r.2.2 = false)
    (hgap : ColGap (2 * ((Mat.hier n n A0).nRows : K) * (Mat.hier n n A0).nRows * τ) 0
      (Mat.hier n n A0).nRows (Mat.hier n n A0).entry)
    (hP : LuPert τ n A0 i st) (h : getrfStep g f su sl n n i st = .ok st') : LuPert τ n A0 (i + 1) st' := by
  obtain ⟨fl, hfl, S⟩ := getrfStep_local hg hτ he hA hF hFl hf hfe hsu hsl hsue hsle hi hI h
  have hI' := getrfStep_inv hg hA hF hf hsu hsl hi hI h
  have hA' := hA
  simp only [WF] at hA'
  obtain ⟨hn0, -, hAd⟩ := hA'
  have hD := hF.diagSquare
  have hw := hD.widths hA
  have hAb : ∀ a < n, ∀ b < n, (A0 a b).nRows = (A0 a 0).nRows ∧ (A0 a b).nCols = (A0 b 0).nRows :=
    fun a ha b hb => ⟨(hAd a ha b hb).2.1, by rw [(hAd a ha b hb).2.2, hw b hb]⟩
  obtain ⟨hfg, F, hFA, hFe⟩ := hP
  set o := psum (fun k => (A0 k 0).nRows) with ho
  set N := (Mat.hier n n A0).nRows with hN
  have osucc : o (i + 1) = o i + (A0 i 0).nRows := psum_succ _ _
  have oend : ∀ a < n, o a + (A0 a 0).nRows ≤ N := fun a ha => by
    rw [hN, nRows_hier]; exact psum_le _ ha
  have ole : o (i + 1) ≤ N := by rw [osucc]; exact oend i hi
  have olK : (o i : K) + (A0 i 0).nRows ≤ N := by exact_mod_cast oend i hi
  have on : (0 : K) ≤ o i := Nat.cast_nonneg _
  have nn : (0 : K) ≤ (A0 i 0).nRows := Nat.cast_nonneg _
  have hNn : (0 : K) ≤ N := Nat.cast_nonneg _
  -- dominance of the remaining matrix
  have gF := hgap.perturb hFA
  have gF0 : 0 ≤ 2 * (N : K) * N * τ - N * (2 * (o i : K) * τ) := by
    have : 0 ≤ (N : K) * (N - o i) * τ := mul_nonneg (mul_nonneg hNn (by linarith)) hτ
    linarith
  have gD := (gF.elim gF0 (o i)).sub (o := o i) (h := (A0 i 0).nRows) le_rfl (oend i hi)
  -- the pivot block
  obtain ⟨dw, ds, dsh, -⟩ := hI.todo i hi i hi le_rfl le_rfl
  have dd := dsh.dims (hAd i hi i hi).1
  have d0 : (st.2.1 i i).nRows = (A0 i 0).nRows := dd.1.trans (hAb i hi i hi).1
  have d1 : (st.2.1 i i).nCols = (A0 i 0).nRows := dd.2.trans (hAb i hi i hi).2
  have hfl0 : fl = false := by
    refine hfp _ _ dw ds ((hF.2.1 i hi).shape dsh) ((hFl.block hi hi).shape dsh) ?_ hfl
    rw [d0]
    refine (gD.mono ?_).congr (fun x _ hx y _ hy => (hFe i hi i hi le_rfl le_rfl x hx y hy).symm)
    have h1 : ((A0 i 0).nRows : K) * (A0 i 0).nRows ≤ N * (N - o i) :=
      mul_le_mul (by linarith) (by linarith) nn hNn
    have := mul_le_mul_of_nonneg_right h1 hτ
    linarith
  -- the changed matrix
  set Gm : Nat → Nat → Mat K := fun a b => .dense ⟨(A0 a 0).nRows, (A0 b 0).nRows, fun x y =>
    prodEntry false false (st'.1 a i) (st'.2.1 i b) x y +
      (if i < a ∧ i < b then (st'.2.1 a b).entry x y else 0)⟩ with hGm
  have GG := hier_grid (blk := Gm) (h := fun a => (A0 a 0).nRows) (w := fun b => (A0 b 0).nRows) hn0 hn0
    (fun a _ b _ => ⟨trivial, rfl, rfl⟩)
  have GA := hier_grid (blk := A0) (h := fun a => (A0 a 0).nRows) (w := fun b => (A0 b 0).nRows) hn0 hn0
    (fun a ha b hb => ⟨(hAd a ha b hb).1, (hAd a ha b hb).2.1, (hAd a ha b hb).2.2.trans (hw b hb)⟩)
  have NE : N = o n := GA.2.1
  set E : Nat → Nat → K := fun p q => if (o i ≤ p ∧ o i ≤ q) ∧ p < N ∧ q < N then
    (Mat.hier n n Gm).entry p q - Verif.elim F (o i) p q else 0 with hE
  have Eblk : ∀ a < n, ∀ b < n, i ≤ a → i ≤ b → ∀ x < (A0 a 0).nRows, ∀ y < (A0 b 0).nRows,
      E (o a + x) (o b + y) = (Gm a b).entry x y - Verif.elim F (o i) (o a + x) (o b + y) := by
    intro a ha b hb hia hib x hx y hy
    have m1 : o i ≤ o a := psum_mono _ hia
    have m2 : o i ≤ o b := psum_mono _ hib
    have e1 := oend a ha
    have e2 := oend b hb
    simp only [hE]
    rw [if_pos (by omega), (GG.2.2.2 a ha b hb x hx y hy).1]
  have Ebd : ∀ p < N, ∀ q < N, |E p q| ≤ 2 * ((A0 i 0).nRows : K) * τ := by
    intro p hp q hq
    by_cases hc : o i ≤ p ∧ o i ≤ q
    · rw [NE] at hp hq
      obtain ⟨a, ha, x, hx, rfl⟩ := exists_block _ _ _ hp
      obtain ⟨b, hb, y, hy, rfl⟩ := exists_block _ _ _ hq
      have hia : i ≤ a := by
        by_contra hlt
        have : o (a + 1) ≤ o i := psum_mono _ (by omega)
        have e : o (a + 1) = o a + (A0 a 0).nRows := psum_succ _ _
        have := hc.1
        rw [ho] at *
        omega
      have hib : i ≤ b := by
        by_contra hlt
        have : o (b + 1) ≤ o i := psum_mono _ (by omega)
        have e : o (b + 1) = o b + (A0 b 0).nRows := psum_succ _ _
        have := hc.2
        rw [ho] at *
        omega
      rw [← ho, Eblk a ha b hb hia hib x hx y hy, ← hFe a ha b hb hia hib x hx y hy]
      exact S.loc a ha b hb hia hib (fun _ _ => hfl0) x (by rw [(hAb a ha b hb).1]; exact hx) y
        (by rw [(hAb a ha b hb).2]; exact hy)
    · simp only [hE]
      rw [if_neg (fun h => hc h.1), abs_zero]
      exact mul_nonneg (mul_nonneg (by norm_num) nn) hτ
  have Ez : ∀ p q, p < o i ∨ q < o i → E p q = 0 := by
    intro p q h
    simp only [hE]
    rw [if_neg (by omega)]
  have F'A : ∀ p < N, ∀ q < N, |F p q + E p q - (Mat.hier n n A0).entry p q| ≤ 2 * (o (i + 1) : K) * τ := by
    intro p hp q hq
    have h1 := hFA p hp q hq
    have h2 := Ebd p hp q hq
    have h3 := abs_add_le (F p q - (Mat.hier n n A0).entry p q) (E p q)
    rw [show F p q + E p q - (Mat.hier n n A0).entry p q = F p q - (Mat.hier n n A0).entry p q + E p q by ring,
      osucc]
    push_cast
    linarith
  have rest : ∀ a < n, ∀ b < n, i ≤ a → i ≤ b → ∀ x < (A0 a 0).nRows, ∀ y < (A0 b 0).nRows,
      Verif.elim (fun p q => F p q + E p q) (o i) (o a + x) (o b + y) =
        prodEntry false false (st'.1 a i) (st'.2.1 i b) x y +
          (if i < a ∧ i < b then (st'.2.1 a b).entry x y else 0) := by
    intro a ha b hb hia hib x hx y hy
    rw [elim_add Ez (o i) le_rfl, Eblk a ha b hb hia hib x hx y hy, add_sub_cancel]
    rfl
  refine ⟨by rw [S.flag, hfg, hfl0]; rfl, fun p q => F p q + E p q, F'A, ?_⟩
  intro a ha b hb hia hib x hx y hy
  have m1 : o (i + 1) ≤ o a := psum_mono _ hia
  have m2 : o (i + 1) ≤ o b := psum_mono _ hib
  have gF' := hgap.perturb F'A
  have gF'0 : 0 ≤ 2 * (N : K) * N * τ - N * (2 * (o (i + 1) : K) * τ) := by
    have h1 : (o (i + 1) : K) ≤ N := by exact_mod_cast ole
    have : 0 ≤ (N : K) * (N - o (i + 1)) * τ := mul_nonneg (mul_nonneg hNn (by linarith)) hτ
    linarith
  have dom' := (((gF'.elim gF'0 (o i)).sub (o := o i) (h := (A0 i 0).nRows) le_rfl (oend i hi)).dom gF'0)
  have lcols : (st'.1 a i).nCols = (A0 i 0).nRows := by
    obtain ⟨-, -, h2, -⟩ := hI'.low i hi (by omega) a ha (by omega)
    have dd := h2.dims (hAd a ha i hi).1
    rw [dd.2, (hAb a ha i hi).2]
  have key := elim_factors S.piv (d0.trans d1.symm)
    (N := fun x y => Verif.elim (fun p q => F p q + E p q) (o i) (o i + x) (o i + y))
    (l := st'.1 a i) (u := st'.2.1 i b) (x := x) (y := y) (i0 := o a - o i + x) (j0 := o b - o i + y)
    (fun p hp q hq => by
      rw [d0] at hp hq
      show Verif.elim _ _ _ _ = _
      rw [rest i hi i hi le_rfl le_rfl p hp q hq, if_neg (by omega), add_zero])
    (fun l hl => dom'.pivots (by rw [d0] at hl; exact hl))
    (by omega) (by omega) (by rw [lcols, d0])
    (fun t ht => by
      rw [d0] at ht
      show Verif.elim _ _ _ _ = _
      rw [show o i + (o a - o i + x) = o a + x by omega, rest a ha i hi (by omega) le_rfl x hx t ht,
        if_neg (by omega), add_zero])
    (fun t ht => by
      rw [d0] at ht
      show Verif.elim _ _ _ _ = _
      rw [show o i + (o b - o i + y) = o b + y by omega, rest i hi b hb le_rfl (by omega) t ht y hy,
        if_neg (by omega), add_zero])
  rw [elim_shift, d0, ← osucc] at key
  rw [show o i + (o a - o i + x) = o a + x by omega, show o i + (o b - o i + y) = o b + y by omega] at key
  rw [key, rest a ha b hb (by omega) (by omega) x hx y hy, if_pos (by omega)]
  ring

theorem getrfWith_pert {ex : Prop} {lu : Dense K → Dense K × Bool} (hlu : LuContract lu)
    (hnp : LuNoPivot lu) {g : GemmT K}
    (hg : GemmOk ex False g) {τ : K} (hτ : 0 ≤ τ) (he : GemmErr τ g)
    {su sl : Mat K → Mat K → Except Err (Mat K)}
    (hsu : ∀ A B B', A.WF → B.WF → B.Square → A.DiagSquare → TriFits .right A B → A.nRows = B.nCols →
      su A B = .ok B' → TrsmPost ex .right (triEntry .upper false A) A.nRows B B')
    (hsl : ∀ A B B', A.WF → B.WF → B.Square → A.DiagSquare → TriFits .left A B → A.nRows = B.nRows →
      sl A B = .ok B' → TrsmPost ex .left (triEntry .lower true A) A.nRows B B')
    (hsue : ∀ A B B', A.WF → B.WF → B.Square → A.DiagSquare → TriFits .right A B → A.nRows = B.nCols →
      A.Filled → B.Filled → su A B = .ok B' → ∀ i < B.nRows, ∀ j < B.nCols,
        |sideProd .right A.nRows (triEntry .upper false A) B' i j - B.entry i j| ≤ 2 * (A.nRows : K) * τ)
    (hsle : ∀ A B B', A.WF → B.WF → B.Square → A.DiagSquare → TriFits .left A B → A.nRows = B.nRows →
      A.Filled → B.Filled → sl A B = .ok B' → ∀ i < B.nRows, ∀ j < B.nCols,
        |sideProd .left A.nRows (triEntry .lower true A) B' i j - B.entry i j| ≤ 2 * (A.nRows : K) * τ)
    (fuel : Nat) :
    ∀ A r, A.WF → A.Square → A.LuFits → A.Filled →
      ColGap (2 * (A.nRows : K) * A.nRows * τ) 0 A.nRows A.entry → getrfWith lu g su sl fuel A = .ok r →
      r.2.2 = false := by
  induction fuel with
  | zero => intro A r _ _ _ _ _ h; cases h
  | succ fuel ih =>
    intro A r hA hs hF hFl hgap h
    cases A with
    | lowRank => exact hF.elim
    | empty => exact hF.elim
    | dense a =>
      have ha : a.rows = a.cols := hF
      simp only [getrfWith, getrfDense, except_bind_eq_ok, assertM_eq_ok] at h
      obtain ⟨-, -, h⟩ := h
      cases h
      have hdom : ColDom 0 a.rows a.val := hgap.dom (by positivity)
      refine hnp a ha (fun j hj => ?_)
      have := hdom j (Nat.zero_le _) (by rw [ha]; exact hj)
      rw [Nat.Ico_zero_eq_range] at this
      exact this
    | hier p q A =>
      have hpq : p = q := hF.1
      subst hpq
      simp only [getrfWith, except_bind_eq_ok] at h
      obtain ⟨st, hst, h⟩ := h
      cases h
      have hA' := hA
      simp only [WF] at hA'
      have hw := hF.diagSquare.widths hA
      have I := loop_inv (fun m st => LuInv ex p A m st ∧ LuPert τ p A m st) ?_
        (fun i hi a b hI hb => ⟨getrfStep_inv hg hA hF (getrfWith_ok hlu hg hsu hsl fuel) hsu hsl hi hI.1 hb,
          getrfStep_pert hg hτ he hA hF hFl (getrfWith_ok hlu hg hsu hsl fuel)
            (getrfWith_err hlu hg hτ he hsu hsl hsue hsle fuel) hsu hsl hsue hsle hi hI.1 ih hgap
            hI.2 hb⟩) hst
      · exact I.2.flag
      refine ⟨⟨fun a ha b hb _ _ => ⟨(hA'.2.2 a ha b hb).1, hs a ha b hb, SameShape.refl _,
        fun x _ y _ _ => by simp⟩, fun t _ h => by omega, fun t _ h => by omega, fun t _ h => by omega,
        fun _ a _ b _ h => by omega⟩, rfl, (Mat.hier p p A).entry, fun i _ j _ => by simp [psum], ?_⟩
      intro i hi j hj _ _ x hx y hy
      have e : psum (fun k => (A k 0).nRows) j = psum (fun k => (A 0 k).nCols) j :=
        psum_congr (fun k hk => (hw k (by omega)).symm)
      show _ = (Mat.hier p p A).entry _ _
      rw [e]
      exact (entry_block hi hj hx (by rw [hw j hj]; exact hy)).symm

/-- A factorization of a matrix that is diagonally dominant by a margin larger than the
truncation errors makes no row interchange. -/
theorem getrf_pert {lu : Dense K → Dense K × Bool} (hlu : LuContract lu) (hnp : LuNoPivot lu) {o : LrOps K}
    (hf : o.Fits False) {τ : K} (hτ : 0 ≤ τ) (hw : o.Within τ)
    (fuel : Nat) {A L U : Mat K} {flag : Bool} (hA : A.WF) (hs : A.Square) (hF : A.LuFits) (hFl : A.Filled)
    (hgap : ColGap (2 * (A.nRows : K) * A.nRows * τ) 0 A.nRows A.entry)
    (h : getrf lu o fuel A = .ok (L, U, flag)) : flag = false :=
  getrfWith_pert hlu hnp (gemmBoth_ok hf fuel).1 hτ (gemmBoth_err hf hτ hw fuel)
    (fun A B B' h1 h2 h3 h4 h5 h6 h7 => by
      have := trsmWith_ok (gemmBoth_ok hf fuel).1 (side := .right) (uplo := .upper) fuel A B B' h1 h2 h3 h4 h5 h6 h7
      exact this)
    (fun A B B' h1 h2 h3 h4 h5 h6 h7 => by
      have := trsmWith_ok (gemmBoth_ok hf fuel).1 (side := .left) (uplo := .lower) fuel A B B' h1 h2 h3 h4 h5 h6 h7
      exact this)
    (fun A B B' h1 h2 h3 h4 h5 h6 h7 h8 h9 => by
      have := trsm_err hf hτ hw (side := .right) (uplo := .upper) fuel h1 h2 h3 h4 h5 h6 h7 h8 h9
      exact this)
    (fun A B B' h1 h2 h3 h4 h5 h6 h7 h8 h9 => by
      have := trsm_err hf hτ hw (side := .left) (uplo := .lower) fuel h1 h2 h3 h4 h5 h6 h7 h8 h9
      exact this)
    fuel A _ hA hs hF hFl hgap h

end Mat
end Verif
