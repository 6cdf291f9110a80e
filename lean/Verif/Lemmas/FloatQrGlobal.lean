import Verif.Lemmas.FloatQrAll

/-!
Rounding errors of tiled Householder QR: from block columns to the whole matrix.
-/

set_option linter.unusedSectionVars false
set_option linter.unusedVariables false

namespace Verif
open Finset
open Mat (LowEq putRow putCol stepPairs mem_stepPairs pairs mem_pairs pairs_succ torder mem_torder exists_block
  entry_block sum_blocks locate_at)
open TileOps (tstep runT colFactor)

section
variable {F : FlQr} {ε : ℝ} {p q : Nat} {h w v : Nat → Nat}

theorem DenseTiles.grid {A : Nat → Nat → Mat ℝ} (H : DenseTiles p q h w A) : DGrid h w p q A :=
  fun j hj i hi => H i hi j hj

theorem DGrid.tiles {A : Nat → Nat → Mat ℝ} (H : DGrid h w p q A) : DenseTiles p q h w A :=
  fun i hi j hj => H j hj i hi

/-- Rows and columns of a grid of tiles. -/
theorem DenseTiles.dims {A : Nat → Nat → Mat ℝ} (H : DenseTiles p q h w A) (hp : 0 < p) (hq : 0 < q) :
    (∀ a < p, (A a 0).nRows = h a) ∧ ∀ b < q, (A 0 b).nCols = w b := by
  refine ⟨fun a ha => ?_, fun b hb => ?_⟩
  · obtain ⟨d, e, h1, h2⟩ := H a ha 0 hq
    rw [e]; exact h1
  · obtain ⟨d, e, h1, h2⟩ := H 0 hp b hb
    rw [e]; exact h2

theorem DenseTiles.entry {A : Nat → Nat → Mat ℝ} (H : DenseTiles p q h w A) {a b r s : Nat}
    (ha : a < p) (hb : b < q) (hr : r < h a) (hs : s < w b) :
    (Mat.hier p q A).entry (psum h a + r) (psum w b + s) = (A a b).entry r s := by
  obtain ⟨d1, d2⟩ := H.dims (by omega) (by omega)
  have := entry_block (blk := A) ha hb (by rw [d1 a ha]; exact hr) (by rw [d2 b hb]; exact hs)
  rw [Verif.psum_congr (h' := h) (fun c hc => d1 c (by omega)), Verif.psum_congr (h' := w) (fun c hc => d2 c (by omega))] at this
  exact this

theorem entry_cm {A : Nat → Nat → Mat ℝ} (H : DenseTiles p q h w A) {g j y : Nat} (hg : g < psum h p) (hj : j < q)
    (hy : y < w j) : (Mat.hier p q A).entry g (psum w j + y) = cm h p (fun i => A i j) g y := by
  obtain ⟨b, hb, r, hr, rfl⟩ := exists_block h p g hg
  rw [H.entry hb hj hr hy]
  unfold cm
  rw [flat_at hb hr]

/-- Block columns together. -/
theorem frob_cols {M : Nat} {Z X : Nat → Nat → ℝ} {a : ℝ} (ha : 0 ≤ a)
    (hj : ∀ j < q, frob M (w j) (fun g y => Z g (psum w j + y)) ≤ a * frob M (w j) (fun g y => X g (psum w j + y))) :
    frob M (psum w q) Z ≤ a * frob M (psum w q) X := by
  have e : ∀ X : Nat → Nat → ℝ, ∑ i ∈ range M, ∑ j ∈ range (psum w q), X i j ^ 2 =
      ∑ j ∈ range q, frob M (w j) (fun g y => X g (psum w j + y)) ^ 2 := by
    intro X
    rw [Finset.sum_congr rfl (fun i _ => sum_blocks w q (fun c => X i c ^ 2)), Finset.sum_comm]
    exact Finset.sum_congr rfl (fun j _ => (frob_sq _ _ _).symm)
  refine frob_mono (mul_nonneg ha (frob_nonneg _ _ _)) ?_
  rw [mul_pow, frob_sq, e, e, Finset.mul_sum]
  refine Finset.sum_le_sum (fun j hj' => ?_)
  rw [← mul_pow]
  exact pow_le_pow_left₀ (frob_nonneg _ _ _) (hj j (Finset.mem_range.1 hj')) 2

/-- Error bounds for the block columns give one for the matrix. -/
theorem acts_cols {M : Nat} {P X X' : Nat → Nat → ℝ} {a : ℝ} (ha : 1 ≤ a)
    (hj : ∀ j < q, ActsLike M (w j) a P (fun g y => X g (psum w j + y)) (fun g y => X' g (psum w j + y))) :
    ActsLike M (psum w q) a P X X' := by
  unfold ActsLike
  exact frob_cols (by linarith) hj

theorem pairs_split {j : Nat} (hj : j < q) : ∃ rest, pairs p q = pairs p (j + 1) ++ rest ∧
    ∀ e ∈ rest, j < e.1 ∧ e.1 < q ∧ e.1 ≤ e.2 ∧ e.2 < p := by
  induction q with
  | zero => omega
  | succ q ih =>
    by_cases e : j = q
    · subst e
      exact ⟨[], by simp, by simp⟩
    · obtain ⟨rest, h1, h2⟩ := ih (by omega)
      refine ⟨rest ++ stepPairs p q, by rw [pairs_succ, h1, List.append_assoc], ?_⟩
      intro e' he'
      rcases List.mem_append.1 he' with h3 | h3
      · have := h2 e' h3; omega
      · have := mem_stepPairs.1 h3; omega

theorem pairs_length : (pairs p q).length = tileCount p q := by
  induction q with
  | zero => simp [pairs, tileCount]
  | succ q ih =>
    rw [pairs_succ, List.length_append, ih]
    unfold tileCount
    rw [Finset.sum_range_succ]
    simp [stepPairs]

theorem pairs_length_le {j : Nat} (hj : j < q) : (pairs p (j + 1)).length ≤ tileCount p q := by
  rw [pairs_length]
  unfold tileCount
  exact Finset.sum_le_sum_of_subset (Finset.range_subset_range.2 hj)

theorem pow_le_pow_eps (hε : 0 ≤ ε) {a b : Nat} (hab : a ≤ b) : (1 + ε) ^ a ≤ (1 + ε) ^ b :=
  pow_le_pow_right₀ (by linarith) hab

/-- The triangular factor of the whole matrix. -/
theorem factor_all (hε : 0 ≤ ε) {A Y T' Rb : Nat → Nat → Mat ℝ} {P : Nat × Nat → Nat → Nat → ℝ}
    (hA : DenseTiles p q h w A) (hR : DenseTiles p q h w Rb) (H : Refls F ε p h w Y T' P (pairs p q))
    (hfac : ∀ j < q, ActsLike (psum h p) (w j) ((1 + ε) ^ (pairs p (j + 1)).length)
          (prodOrth (psum h p) h w P true (pairs p (j + 1))) (cm h p (fun i => A i j))
          (flat h p (masked j p (fun i => Y i j))))
    (hz : ∀ i < p, ∀ j < q, ∀ r < h i, ∀ s < w j, (Rb i j).entry r s = masked j p (fun i => Y i j) i r s) :
    ActsLike (psum h p) (psum w q) ((1 + ε) ^ tileCount p q) (prodOrth (psum h p) h w P true (pairs p q))
      (Mat.hier p q A).entry (Mat.hier p q Rb).entry := by
  refine acts_cols (one_le_pow_eps hε _) (fun j hj => ?_)
  obtain ⟨rest, e1, e2⟩ := pairs_split (p := p) hj
  have tin : ∀ e ∈ rest, TileIn p h w e ∧ j < e.1 := fun e he =>
    ⟨(H e (by rw [e1]; simp [he])).1, (e2 e he).1⟩
  have orest : Orthogonal (psum h p) (prodOrth (psum h p) h w P true rest) :=
    prodOrth_orth (fun e he => ⟨(tin e he).1, (H e (by rw [e1]; simp [he])).2.1⟩)
  have k := ((hfac j hj).keep orest (prod_keeps tin (by
    intro b h1 h2 r _ y _
    unfold masked
    rw [if_pos (Or.inl ⟨h1, h2⟩)]))).le (pow_le_pow_eps hε (pairs_length_le (p := p) hj))
  refine (k.congrP (P' := prodOrth (psum h p) h w P true (pairs p q)) (fun a ha b _ => ?_)).congr ?_ ?_
  · rw [e1, prodOrth_append _ _ ha]
  · intro g hg y hy
    exact (entry_cm hA hg hj hy).symm
  · intro g hg y hy
    obtain ⟨b, hb, r, hr, rfl⟩ := exists_block h p g hg
    rw [flat_at hb hr, hR.entry hb hj hr hy, hz b hb j hj r hr y hy]

/-- A product of the reflectors with a matrix that is zero below the block diagonal. -/
theorem apply_all (hε : 0 ≤ ε) {Y T' C D : Nat → Nat → Mat ℝ} {P : Nat × Nat → Nat → Nat → ℝ}
    (H : Refls F ε p h w Y T' P (pairs p q)) (hC : DenseTiles p q h v C) (hU : BlockUpper p q h v C)
    (hrun : F.tiles.leftMulTiled p q Y p q T' p q C false = .ok D) :
    ActsLike (psum h p) (psum v q) ((1 + ε) ^ tileCount p q)
      (fun i j => prodOrth (psum h p) h w P true (pairs p q) j i)
      (Mat.hier p q C).entry (Mat.hier p q D).entry := by
  have hD : DenseTiles p q h v D := fun i hi j hj => (leftMulTiled_fl hε H hC.grid hrun hj (le_refl _)).1 i hi
  refine acts_cols (one_le_pow_eps hε _) (fun j hj => ?_)
  obtain ⟨rest, e1, e2⟩ := pairs_split (p := p) hj
  have k := ((leftMulTiled_fl hε H hC.grid hrun hj (le_refl _)).2.le (pow_le_pow_eps hε (pairs_length_le (p := p) hj)))
  have k2 := ActsLike.keep_arg (Q := prodOrth (psum h p) h w P false rest.reverse) k
    (prod_keeps (j := j) (fun e he => by
      have he := List.mem_reverse.1 he
      exact ⟨(H e (by rw [e1]; simp [he])).1, (e2 e he).1⟩) (by
    intro b h1 h2 r hr y hy
    exact hU b h2 j hj h1 r hr y hy))
  refine (k2.congrP (P' := fun i j => prodOrth (psum h p) h w P true (pairs p q) j i) (fun a ha b hb => ?_)).congr ?_ ?_
  · rw [← prodOrth_reverse _ ha hb, e1, List.reverse_append, prodOrth_append _ _ ha]
    rfl
  · intro g hg y hy
    exact (entry_cm hC hg hj hy).symm
  · intro g hg y hy
    exact (entry_cm hD hg hj hy).symm

/-- The transposed reflectors undo the reflectors. -/
theorem undo_all (hε : 0 ≤ ε) {Y T' C D E : Nat → Nat → Mat ℝ} {P : Nat × Nat → Nat → Nat → ℝ} {trans : Bool}
    (H : Refls F ε p h w Y T' P (pairs p q)) (hC : DenseTiles p q h v C)
    (hrun : F.tiles.leftMulTiled p q Y p q T' p q C trans = .ok D)
    (hrun' : F.tiles.leftMulTiled p q Y p q T' p q D (!trans) = .ok E) :
    ActsLike (psum h p) (psum v q) ((1 + ε) ^ (2 * tileCount p q)) oneSq
      (Mat.hier p q C).entry (Mat.hier p q E).entry := by
  have hD : DenseTiles p q h v D := fun i hi j hj => (leftMulTiled_fl hε H hC.grid hrun hj (le_refl _)).1 i hi
  have hE : DenseTiles p q h v E := fun i hi j hj => (leftMulTiled_fl hε H hD.grid hrun' hj (le_refl _)).1 i hi
  refine acts_cols (one_le_pow_eps hε _) (fun j hj => ?_)
  have k1 := (leftMulTiled_fl hε H hC.grid hrun hj (le_refl _)).2
  have k2 := (leftMulTiled_fl hε H hD.grid hrun' hj (le_refl _)).2
  have or : ∀ t t', Orthogonal (psum h p) (prodOrth (psum h p) h w P t (torder t' p j)) := by
    intro t t'
    refine prodOrth_orth (fun e he => ?_)
    obtain ⟨m1, m2, m3⟩ := mem_torder.1 he
    have := H e (mem_pairs.2 ⟨by omega, m2, m3⟩)
    exact ⟨this.1, this.2.1⟩
  have k3 := (ActsLike.trans (one_le_pow_eps hε _) (or _ _) (or _ _) k1 k2)
  rw [← pow_add] at k3
  refine ((k3.congrP (P' := oneSq) (fun a ha b hb => ?_)).le
    (pow_le_pow_eps hε (by have := pairs_length_le (p := p) hj; omega))).congr ?_ ?_
  · have fl : ∀ t, ∀ x < psum h p, ∀ y < psum h p, prodOrth (psum h p) h w P (!t) (torder (!t) p j) x y =
        prodOrth (psum h p) h w P t (torder t p j) y x := by
      intro t x hx y hy
      cases t
      · exact (prodOrth_reverse _ hy hx).symm
      · exact prodOrth_reverse _ hx hy
    have := ((orth_iff.1 (or trans trans)).1 a ha b hb)
    refine Eq.trans ?_ this
    exact Finset.sum_congr rfl (fun l hl => by rw [fl trans a ha l (Finset.mem_range.1 hl)])
  · intro g hg y hy
    exact (entry_cm hC hg hj hy).symm
  · intro g hg y hy
    exact (entry_cm hE hg hj hy).symm

/-- `zero_lower` on dense tiles. -/
theorem zeroLower_tiles {Y : Nat → Nat → Mat ℝ} (hY : DenseTiles p q h w Y) :
    ∃ Rb, (Mat.hier p q Y).zeroLower = .ok (.hier p q Rb) ∧ DenseTiles p q h w Rb ∧
      ∀ i < p, ∀ j < q, ∀ r < h i, ∀ s < w j, (Rb i j).entry r s = masked j p (fun i => Y i j) i r s := by
  have z : ∀ i < p, ∀ j < q, ∃ X, (if j = i then (Y i j).zeroLower else if j < i then (Y i j).zeroAll
      else .ok (Y i j)) = .ok X ∧ (∃ d : Dense ℝ, X = .dense d ∧ d.rows = h i ∧ d.cols = w j) ∧
      ∀ r < h i, ∀ s < w j, X.entry r s = masked j p (fun i => Y i j) i r s := by
    intro i hi j hj
    obtain ⟨d, e, dr, dc⟩ := hY i hi j hj
    unfold masked
    by_cases hij : j = i
    · subst hij
      rw [if_pos rfl, e]
      refine ⟨_, rfl, ⟨_, rfl, dr, dc⟩, fun r _ s _ => ?_⟩
      by_cases hrs : s < r
      · rw [if_pos (Or.inr ⟨rfl, hrs⟩)]
        show (if s < r then 0 else d.val r s) = 0
        rw [if_pos hrs]
      · rw [if_neg (by omega)]
        dsimp only
        rw [e]
        show (if s < r then 0 else d.val r s) = d.val r s
        rw [if_neg hrs]
    · rw [if_neg hij]
      by_cases hlt : j < i
      · rw [if_pos hlt, e]
        refine ⟨_, rfl, ⟨_, rfl, dr, dc⟩, fun r _ s _ => ?_⟩
        rw [if_pos (Or.inl ⟨hlt, hi⟩)]
        rfl
      · rw [if_neg hlt]
        refine ⟨_, rfl, ⟨d, e, dr, dc⟩, fun r _ s _ => ?_⟩
        rw [if_neg (by omega)]
  obtain ⟨Rb, hRb⟩ := collect2_exists (fun i hi j hj => (z i hi j hj).imp (fun _ e => e.1))
  have g : ∀ i < p, ∀ j < q, (∃ d : Dense ℝ, Rb i j = .dense d ∧ d.rows = h i ∧ d.cols = w j) ∧
      ∀ r < h i, ∀ s < w j, (Rb i j).entry r s = masked j p (fun i => Y i j) i r s := by
    intro i hi j hj
    obtain ⟨X, e1, e2⟩ := z i hi j hj
    have := collect2_ok hRb i hi j hj
    rw [e1] at this
    rw [← Except.ok.inj this]
    exact e2
  refine ⟨Rb, ?_, fun i hi j hj => (g i hi j hj).1, fun i hi j hj => (g i hi j hj).2⟩
  simp only [Mat.zeroLower]
  rw [hRb]
  rfl

end
end Verif
