import Verif.Spec.FloatQr
import Verif.Lemmas.Mat
import Mathlib.Tactic.Linarith
import Mathlib.Tactic.Ring

/-!
Frobenius norms and orthogonal matrices, for the rounding errors of Householder QR.
-/

namespace Verif
open Finset

theorem frob_nonneg (m n : Nat) (X : Nat → Nat → ℝ) : 0 ≤ frob m n X := Real.sqrt_nonneg _

theorem frob_sq (m n : Nat) (X : Nat → Nat → ℝ) :
    frob m n X ^ 2 = ∑ i ∈ range m, ∑ j ∈ range n, X i j ^ 2 :=
  Real.sq_sqrt (Finset.sum_nonneg (fun _ _ => Finset.sum_nonneg (fun _ _ => sq_nonneg _)))

theorem frob_congr {m n : Nat} {X Y : Nat → Nat → ℝ} (h : ∀ i < m, ∀ j < n, X i j = Y i j) :
    frob m n X = frob m n Y := by
  unfold frob
  congr 1
  refine Finset.sum_congr rfl (fun i hi => Finset.sum_congr rfl (fun j hj => ?_))
  rw [h i (Finset.mem_range.1 hi) j (Finset.mem_range.1 hj)]

theorem frob_add (m n : Nat) (X Y : Nat → Nat → ℝ) :
    frob m n (fun i j => X i j + Y i j) ≤ frob m n X + frob m n Y := by
  have key : ∀ Z : Nat → Nat → ℝ, frob m n Z =
      ‖(WithLp.toLp 2 (fun x : Fin m × Fin n => Z x.1 x.2) : EuclideanSpace ℝ (Fin m × Fin n))‖ := by
    intro Z
    rw [EuclideanSpace.norm_eq, frob]
    congr 1
    rw [Fintype.sum_prod_type, Finset.sum_range]
    refine Finset.sum_congr rfl (fun i _ => ?_)
    rw [Finset.sum_range]
    refine Finset.sum_congr rfl (fun j _ => ?_)
    simp
  rw [key, key, key]
  exact norm_add_le (WithLp.toLp 2 (fun x : Fin m × Fin n => X x.1 x.2) : EuclideanSpace ℝ (Fin m × Fin n))
    (WithLp.toLp 2 (fun x : Fin m × Fin n => Y x.1 x.2))

theorem frob_neg (m n : Nat) (X : Nat → Nat → ℝ) : frob m n (fun i j => - X i j) = frob m n X := by
  unfold frob
  simp only [neg_sq]

theorem frob_mono {m n : Nat} {X : Nat → Nat → ℝ} {b : ℝ} (hb : 0 ≤ b)
    (h : ∑ i ∈ range m, ∑ j ∈ range n, X i j ^ 2 ≤ b ^ 2) : frob m n X ≤ b :=
  (Real.sqrt_le_left hb).2 h

/-- Triangle inequality in the form used for errors. -/
theorem frob_via {m n : Nat} {X Y Z : Nat → Nat → ℝ} {a b : ℝ}
    (h : frob m n (fun i j => X i j - Y i j) ≤ a) (h' : frob m n (fun i j => Y i j - Z i j) ≤ b) :
    frob m n (fun i j => X i j - Z i j) ≤ a + b := by
  have := frob_add m n (fun i j => X i j - Y i j) (fun i j => Y i j - Z i j)
  rw [frob_congr (Y := fun i j => X i j - Z i j) (by intros; ring)] at this
  linarith

/-! ### orthogonal matrices -/

theorem Orthogonal.flip {m : Nat} {P : Nat → Nat → ℝ} (h : Orthogonal m P) : Orthogonal m (fun i j => P j i) :=
  fun i hi j hj => ⟨(h i hi j hj).2, (h i hi j hj).1⟩

theorem applyOrth_true (m : Nat) (P X : Nat → Nat → ℝ) :
    applyOrth m true P X = applyOrth m false (fun i j => P j i) X := by
  funext i j
  simp [applyOrth]

/-- The orthogonal factor that is applied. -/
def opOrth (trans : Bool) (P : Nat → Nat → ℝ) (i j : Nat) : ℝ := if trans then P j i else P i j

theorem opOrth_orth {m : Nat} {trans : Bool} {P : Nat → Nat → ℝ} (h : Orthogonal m P) :
    Orthogonal m (opOrth trans P) := by
  cases trans
  · exact h
  · exact h.flip

/-- Product of two matrices of order `m`. -/
def mulSq (m : Nat) (P Q : Nat → Nat → ℝ) (i j : Nat) : ℝ := ∑ l ∈ range m, P i l * Q l j

theorem applyOrth_op (m : Nat) (trans : Bool) (P X : Nat → Nat → ℝ) :
    applyOrth m trans P X = mulSq m (opOrth trans P) X := by
  funext i j
  cases trans <;> simp [applyOrth, opOrth, mulSq]

theorem mulSq_assoc (m : Nat) (P Q X : Nat → Nat → ℝ) : mulSq m (mulSq m P Q) X = mulSq m P (mulSq m Q X) := by
  funext i j
  simp only [mulSq, Finset.sum_mul, Finset.mul_sum]
  rw [Finset.sum_comm]
  simp only [mul_assoc]

theorem mulSq_congr {m n : Nat} {P X Y : Nat → Nat → ℝ} (h : ∀ l < m, ∀ j < n, X l j = Y l j) (i : Nat) {j : Nat}
    (hj : j < n) : mulSq m P X i j = mulSq m P Y i j :=
  Finset.sum_congr rfl (fun l hl => by rw [h l (Finset.mem_range.1 hl) j hj])

theorem mulSq_flip (m : Nat) (P Q : Nat → Nat → ℝ) :
    (fun i j => mulSq m P Q j i) = mulSq m (fun i j => Q j i) (fun i j => P j i) := by
  funext i j
  simp only [mulSq, mul_comm]

theorem mulSq_sub (m : Nat) (P X Y : Nat → Nat → ℝ) (i j : Nat) :
    mulSq m P (fun i j => X i j - Y i j) i j = mulSq m P X i j - mulSq m P Y i j := by
  simp only [mulSq, mul_sub, Finset.sum_sub_distrib]

theorem orth_iff {m : Nat} {P : Nat → Nat → ℝ} :
    Orthogonal m P ↔ (∀ i < m, ∀ j < m, mulSq m (fun i j => P j i) P i j = if i = j then 1 else 0) ∧
      ∀ i < m, ∀ j < m, mulSq m P (fun i j => P j i) i j = if i = j then 1 else 0 :=
  ⟨fun h => ⟨fun i hi j hj => (h i hi j hj).1, fun i hi j hj => (h i hi j hj).2⟩,
    fun h i hi j hj => ⟨h.1 i hi j hj, h.2 i hi j hj⟩⟩

theorem mulSq_one {m : Nat} {D X : Nat → Nat → ℝ} (h : ∀ i < m, ∀ j < m, D i j = if i = j then 1 else 0)
    {i : Nat} (hi : i < m) (j : Nat) : mulSq m D X i j = X i j := by
  unfold mulSq
  rw [Finset.sum_congr rfl (g := fun l => if i = l then X l j else 0) (fun l hl => by
    rw [h i hi l (Finset.mem_range.1 hl)]; split <;> simp)]
  rw [Finset.sum_ite_eq, if_pos (Finset.mem_range.2 hi)]

theorem mulSq_cancel {m : Nat} {P X : Nat → Nat → ℝ} (h : Orthogonal m P) {i : Nat} (hi : i < m) (j : Nat) :
    mulSq m (fun i j => P j i) (mulSq m P X) i j = X i j := by
  rw [← mulSq_assoc]
  exact mulSq_one (orth_iff.1 h).1 hi j

theorem orth_mul {m : Nat} {P Q : Nat → Nat → ℝ} (hP : Orthogonal m P) (hQ : Orthogonal m Q) :
    Orthogonal m (mulSq m P Q) := by
  have half : ∀ {P Q : Nat → Nat → ℝ}, Orthogonal m P → Orthogonal m Q → ∀ i < m, ∀ j < m,
      mulSq m (fun i j => mulSq m P Q j i) (mulSq m P Q) i j = if i = j then 1 else 0 := by
    intro P Q hP hQ i hi j hj
    rw [mulSq_flip, mulSq_assoc, mulSq_congr (n := m) (Y := Q) (fun l hl j _ => mulSq_cancel hP hl j) i hj]
    exact (hQ i hi j hj).1
  refine orth_iff.2 ⟨half hP hQ, fun i hi j hj => ?_⟩
  have := half hQ.flip hP.flip i hi j hj
  rw [show mulSq m (fun i j => Q j i) (fun i j => P j i) = fun i j => mulSq m P Q j i from (mulSq_flip m P Q).symm] at this
  exact this

/-- The identity. -/
def oneSq (i j : Nat) : ℝ := if i = j then 1 else 0

theorem orth_one (m : Nat) : Orthogonal m oneSq := by
  intro i hi j hj
  have h1 := mulSq_one (m := m) (D := oneSq) (X := oneSq) (fun _ _ _ _ => rfl) hi j
  have e : (fun i j => oneSq j i) = oneSq := by
    funext i j
    simp [oneSq, eq_comm]
  refine ⟨?_, ?_⟩
  · have : mulSq m (fun i j => oneSq j i) oneSq i j = oneSq i j := by rw [e]; exact h1
    exact this
  · have : mulSq m oneSq (fun i j => oneSq j i) i j = oneSq i j := by rw [e]; exact h1
    exact this

theorem frob_orth {m n : Nat} {P X : Nat → Nat → ℝ} (h : Orthogonal m P) : frob m n (mulSq m P X) = frob m n X := by
  have key : ∀ Z : Nat → Nat → ℝ, ∑ i ∈ range m, ∑ j ∈ range n, Z i j ^ 2 =
      ∑ j ∈ range n, mulSq m (fun a b => Z b a) Z j j := by
    intro Z
    rw [Finset.sum_comm]
    refine Finset.sum_congr rfl (fun j _ => Finset.sum_congr rfl (fun i _ => ?_))
    ring
  unfold frob
  congr 1
  rw [key, key]
  refine Finset.sum_congr rfl (fun j hj => ?_)
  rw [mulSq_flip, mulSq_assoc]
  refine Finset.sum_congr rfl (fun l hl => ?_)
  rw [mulSq_cancel h (Finset.mem_range.1 hl)]

/-! ### orthogonal matrices acting on some of the rows -/

/-- The matrix that acts as `P` on the rows `ρ 0, …, ρ (m-1)` and keeps the others. -/
noncomputable def embOrth (m : Nat) (ρ : Nat → Nat) (P : Nat → Nat → ℝ) (g g' : Nat) : ℝ :=
  (if g = g' then 1 else 0) + ∑ a ∈ range m, ∑ b ∈ range m,
    if g = ρ a ∧ g' = ρ b then P a b - (if a = b then 1 else 0) else 0

/-- `ρ` picks `m` different rows out of `M`. -/
structure Picks (m M : Nat) (ρ : Nat → Nat) : Prop where
  lt : ∀ a < m, ρ a < M
  inj : ∀ a < m, ∀ b < m, ρ a = ρ b → a = b

variable {m M n : Nat} {ρ : Nat → Nat} {P X : Nat → Nat → ℝ}

theorem embOrth_in (hρ : Picks m M ρ) {a b : Nat} (ha : a < m) (hb : b < m) :
    embOrth m ρ P (ρ a) (ρ b) = P a b := by
  unfold embOrth
  rw [Finset.sum_eq_single a, Finset.sum_eq_single b]
  · by_cases h : a = b
    · subst h; simp
    · have : ρ a ≠ ρ b := fun e => h (hρ.inj a ha b hb e)
      simp [h, this]
  · intro c hc hcb
    rw [if_neg]
    rintro ⟨-, e⟩
    exact hcb (hρ.inj b hb c (Finset.mem_range.1 hc) e).symm
  · intro h; exact absurd (Finset.mem_range.2 hb) h
  · intro c hc hca
    refine Finset.sum_eq_zero (fun d _ => ?_)
    rw [if_neg]
    rintro ⟨e, -⟩
    exact hca (hρ.inj a ha c (Finset.mem_range.1 hc) e).symm
  · intro h; exact absurd (Finset.mem_range.2 ha) h

theorem embOrth_left {g g' : Nat} (hg : ∀ a < m, g ≠ ρ a) : embOrth m ρ P g g' = if g = g' then 1 else 0 := by
  unfold embOrth
  rw [Finset.sum_eq_zero, add_zero]
  intro a ha
  refine Finset.sum_eq_zero (fun b _ => ?_)
  rw [if_neg (fun e => hg a (Finset.mem_range.1 ha) e.1)]

theorem embOrth_right {g g' : Nat} (hg : ∀ a < m, g' ≠ ρ a) : embOrth m ρ P g g' = if g = g' then 1 else 0 := by
  unfold embOrth
  rw [Finset.sum_eq_zero, add_zero]
  intro a ha
  refine Finset.sum_eq_zero (fun b hb => ?_)
  rw [if_neg (fun e => hg b (Finset.mem_range.1 hb) e.2)]

theorem sum_picks (hρ : Picks m M ρ) {f : Nat → ℝ} (hf : ∀ g < M, (∀ a < m, g ≠ ρ a) → f g = 0) :
    ∑ g ∈ range M, f g = ∑ a ∈ range m, f (ρ a) := by
  rw [← Finset.sum_image (f := f) (s := range m) (g := ρ) (fun a ha b hb e =>
    hρ.inj a (Finset.mem_range.1 (by simpa using ha)) b (Finset.mem_range.1 (by simpa using hb)) e)]
  symm
  refine Finset.sum_subset ?_ ?_
  · intro g hg
    obtain ⟨a, ha, rfl⟩ := Finset.mem_image.1 hg
    exact Finset.mem_range.2 (hρ.lt a (Finset.mem_range.1 ha))
  · intro g hg hn
    refine hf g (Finset.mem_range.1 hg) (fun a ha e => hn ?_)
    exact Finset.mem_image.2 ⟨a, Finset.mem_range.2 ha, e.symm⟩

theorem mul_emb_in (hρ : Picks m M ρ) {a : Nat} (ha : a < m) (j : Nat) :
    mulSq M (embOrth m ρ P) X (ρ a) j = mulSq m P (fun b j => X (ρ b) j) a j := by
  unfold mulSq
  rw [sum_picks hρ]
  · exact Finset.sum_congr rfl (fun b hb => by rw [embOrth_in hρ ha (Finset.mem_range.1 hb)])
  · intro g _ hg
    rw [embOrth_right hg, if_neg (fun e => hg a ha e.symm), zero_mul]

theorem mul_emb_out {g : Nat} (hM : g < M) (hg : ∀ a < m, g ≠ ρ a) (j : Nat) :
    mulSq M (embOrth m ρ P) X g j = X g j := by
  unfold mulSq
  rw [Finset.sum_eq_single g]
  · rw [embOrth_left hg, if_pos rfl, one_mul]
  · intro l _ hl
    rw [embOrth_left hg, if_neg (fun e => hl e.symm), zero_mul]
  · intro h; exact absurd (Finset.mem_range.2 hM) h

theorem embOrth_flip : (fun g g' => embOrth m ρ P g' g) = embOrth m ρ (fun a b => P b a) := by
  funext g g'
  unfold embOrth
  rw [Finset.sum_comm]
  congr 1
  · simp only [eq_comm]
  · refine Finset.sum_congr rfl (fun a _ => Finset.sum_congr rfl (fun b _ => ?_))
    simp only [and_comm, eq_comm]

theorem embOrth_op (trans : Bool) : opOrth trans (embOrth m ρ P) = embOrth m ρ (opOrth trans P) := by
  cases trans
  · rfl
  · exact embOrth_flip

theorem embOrth_orth (hρ : Picks m M ρ) (hP : Orthogonal m P) : Orthogonal M (embOrth m ρ P) := by
  have half : ∀ {P : Nat → Nat → ℝ}, Orthogonal m P → ∀ x < M, ∀ y < M,
      mulSq M (fun g g' => embOrth m ρ P g' g) (embOrth m ρ P) x y = if x = y then 1 else 0 := by
    intro P hP x hx y hy
    rw [embOrth_flip]
    by_cases h : ∃ a < m, x = ρ a
    · obtain ⟨a, ha, rfl⟩ := h
      rw [mul_emb_in hρ ha]
      by_cases h' : ∃ c < m, y = ρ c
      · obtain ⟨c, hc, rfl⟩ := h'
        have e : mulSq m (fun a b => P b a) (fun b j => embOrth m ρ P (ρ b) j) a (ρ c) = mulSq m (fun a b => P b a) P a c :=
          Finset.sum_congr rfl (fun l hl => by dsimp only; rw [embOrth_in hρ (Finset.mem_range.1 hl) hc])
        rw [e]
        refine ((hP a ha c hc).1).trans ?_
        by_cases hac : a = c
        · rw [if_pos hac, if_pos (by rw [hac])]
        · rw [if_neg hac, if_neg (fun e => hac (hρ.inj a ha c hc e))]
      · have hy' : ∀ c < m, y ≠ ρ c := fun c hc e => h' ⟨c, hc, e⟩
        unfold mulSq
        rw [if_neg (fun e => hy' a ha e.symm)]
        refine Finset.sum_eq_zero (fun l hl => ?_)
        dsimp only
        rw [embOrth_right hy', if_neg (fun e => hy' l (Finset.mem_range.1 hl) e.symm), mul_zero]
    · have hx' : ∀ c < m, x ≠ ρ c := fun c hc e => h ⟨c, hc, e⟩
      rw [mul_emb_out hx hx', embOrth_left hx']
  refine orth_iff.2 ⟨half hP, fun x hx y hy => ?_⟩
  have := half hP.flip x hx y hy
  rw [← embOrth_flip] at this
  exact this

theorem frob_picks (hρ : Picks m M ρ) {Z : Nat → Nat → ℝ}
    (hZ : ∀ g < M, (∀ a < m, g ≠ ρ a) → ∀ j < n, Z g j = 0) : frob M n Z = frob m n (fun a j => Z (ρ a) j) := by
  unfold frob
  congr 1
  refine sum_picks hρ (fun g hg hn => Finset.sum_eq_zero (fun j hj => ?_))
  rw [hZ g hg hn j (Finset.mem_range.1 hj)]
  ring

theorem frob_picks_le (hρ : Picks m M ρ) : frob m n (fun a j => X (ρ a) j) ≤ frob M n X := by
  unfold frob
  refine Real.sqrt_le_sqrt ?_
  rw [← Finset.sum_image (f := fun g => ∑ j ∈ range n, X g j ^ 2) (s := range m) (g := ρ) (fun a ha b hb e =>
    hρ.inj a (Finset.mem_range.1 (by simpa using ha)) b (Finset.mem_range.1 (by simpa using hb)) e)]
  refine Finset.sum_le_sum_of_subset_of_nonneg ?_ (fun _ _ _ => Finset.sum_nonneg (fun _ _ => sq_nonneg _))
  intro g hg
  obtain ⟨a, ha, rfl⟩ := Finset.mem_image.1 hg
  exact Finset.mem_range.2 (hρ.lt a (Finset.mem_range.1 ha))

/-- `X'` is within the relative error `a - 1` of `P * X`. -/
def ActsLike (M n : Nat) (a : ℝ) (P X X' : Nat → Nat → ℝ) : Prop :=
  frob M n (fun i j => X' i j - mulSq M P X i j) ≤ (a - 1) * frob M n X

/-- An operation on some of the rows. -/
theorem ActsLike.emb (hρ : Picks m M ρ) {ε : ℝ} (hε : 0 ≤ ε) {X' : Nat → Nat → ℝ}
    (hout : ∀ g < M, (∀ a < m, g ≠ ρ a) → ∀ j < n, X' g j = X g j)
    (hin : frob m n (fun a j => X' (ρ a) j - mulSq m P (fun b j => X (ρ b) j) a j) ≤
      ε * frob m n (fun a j => X (ρ a) j)) : ActsLike M n (1 + ε) (embOrth m ρ P) X X' := by
  unfold ActsLike
  rw [frob_picks hρ (fun g hg hn j hj => by rw [mul_emb_out hg hn, hout g hg hn j hj, sub_self]),
    frob_congr (Y := fun a j => X' (ρ a) j - mulSq m P (fun b j => X (ρ b) j) a j)
      (fun a ha j _ => by rw [mul_emb_in hρ ha])]
  refine hin.trans ?_
  rw [add_sub_cancel_left]
  exact mul_le_mul_of_nonneg_left (frob_picks_le hρ) hε

theorem ActsLike.refl (M n : Nat) (X : Nat → Nat → ℝ) : ActsLike M n 1 oneSq X X := by
  unfold ActsLike
  rw [frob_congr (Y := fun _ _ => 0) (fun i hi j _ => by
    rw [mulSq_one (D := oneSq) (fun _ _ _ _ => rfl) hi, sub_self])]
  simp [frob]

theorem ActsLike.le {a b : ℝ} {P X X' : Nat → Nat → ℝ} (h : ActsLike M n a P X X') (hab : a ≤ b) :
    ActsLike M n b P X X' :=
  le_trans h (mul_le_mul_of_nonneg_right (by linarith) (frob_nonneg _ _ _))

theorem ActsLike.trans {a b : ℝ} {P Q X X' X'' : Nat → Nat → ℝ} (hb : 1 ≤ b)
    (hP : Orthogonal M P) (hQ : Orthogonal M Q) (h : ActsLike M n a P X X') (h' : ActsLike M n b Q X' X'') :
    ActsLike M n (b * a) (mulSq M Q P) X X'' := by
  have n1 : frob M n X' ≤ a * frob M n X := by
    have := frob_via (Z := fun _ _ => 0) h (b := frob M n X) (by
      simp only [sub_zero]
      exact (frob_orth hP).le)
    simp only [sub_zero] at this
    linarith
  have h2 : frob M n (fun i j => mulSq M Q X' i j - mulSq M (mulSq M Q P) X i j) ≤ (a - 1) * frob M n X := by
    rw [mulSq_assoc, frob_congr (fun i _ j _ => (mulSq_sub M Q X' (mulSq M P X) i j).symm), frob_orth hQ]
    exact h
  unfold ActsLike at h' ⊢
  have h3 := frob_via h' h2
  have h4 : (b - 1) * frob M n X' ≤ (b - 1) * (a * frob M n X) :=
    mul_le_mul_of_nonneg_left n1 (by linarith)
  calc _ ≤ _ := h3
    _ ≤ (b - 1) * (a * frob M n X) + (a - 1) * frob M n X := by linarith
    _ = _ := by ring

theorem ActsLike.congr {a : ℝ} {P X X' Y Y' : Nat → Nat → ℝ} (h : ActsLike M n a P X X')
    (e : ∀ i < M, ∀ j < n, X i j = Y i j) (e' : ∀ i < M, ∀ j < n, X' i j = Y' i j) : ActsLike M n a P Y Y' := by
  unfold ActsLike at h ⊢
  rw [frob_congr e, frob_congr (Y := fun i j => Y' i j - mulSq M P Y i j) (fun i hi j hj => by
    rw [e' i hi j hj, mulSq_congr e i hj])] at h
  exact h

/-- A further orthogonal factor that keeps the result. -/
theorem ActsLike.keep {a : ℝ} {P Q X X' : Nat → Nat → ℝ} (hQ : Orthogonal M Q) (h : ActsLike M n a P X X')
    (hk : ∀ i < M, ∀ j < n, mulSq M Q X' i j = X' i j) : ActsLike M n a (mulSq M Q P) X X' := by
  unfold ActsLike at h ⊢
  rw [← frob_orth hQ] at h
  refine le_trans (le_of_eq (frob_congr (fun i hi j hj => ?_))) h
  rw [mulSq_sub, hk i hi j hj, mulSq_assoc]

/-- A further orthogonal factor that keeps the argument. -/
theorem ActsLike.keep_arg {a : ℝ} {P Q X X' : Nat → Nat → ℝ} (h : ActsLike M n a P X X')
    (hk : ∀ i < M, ∀ j < n, mulSq M Q X i j = X i j) : ActsLike M n a (mulSq M P Q) X X' := by
  unfold ActsLike at h ⊢
  refine le_trans (le_of_eq (frob_congr (fun i hi j hj => ?_))) h
  rw [mulSq_assoc, mulSq_congr hk i hj]

end Verif
