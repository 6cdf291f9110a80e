import Verif.Lemmas.MgsTotal
import Verif.Lemmas.MgsNest
import Verif.Lemmas.QrExists
import Verif.Lemmas.Blr
import Verif.Props.Mgs

/-!
C55: orthonormal columns and termination of block Gram-Schmidt QR.
-/

set_option linter.unusedSectionVars false

namespace Verif
open Finset

namespace Mat

section
variable {R : Type} [Field R] [DecidableEq R] {L : Lapack R} {o : LrOps R} {ex : Prop} {p n : Nat}
  {A Q Rb : Nat → Nat → Mat R}

theorem IndepCols.grid (h : (Mat.hier p n A).IndepCols) :
    ColsIndep p n (fun i => (A i 0).nRows) (fun j => (A 0 j).nCols) A := by
  intro c hc k hk y hy
  have key := h (fun y => c (locate (fun j => (A 0 j).nCols) n y).1 (locate (fun j => (A 0 j).nCols) n y).2) (by
    intro x hx
    rw [nRows_hier] at hx
    obtain ⟨i, hi, u, hu, rfl⟩ := exists_block _ _ x hx
    rw [nCols_hier, sum_blocks]
    refine Eq.trans (Finset.sum_congr rfl fun k hk => Finset.sum_congr rfl fun y hy => ?_) (hc i hi u hu)
    rw [entry_block hi (mem_range.1 hk) hu (mem_range.1 hy), locate_at _ _ _ _ (mem_range.1 hk) (mem_range.1 hy)])
    (psum (fun j => (A 0 j).nCols) k + y) (by
      rw [nCols_hier]
      have := psum_le (fun j => (A 0 j).nCols) hk
      exact lt_of_lt_of_le (Nat.add_lt_add_left hy _) this)
  rw [locate_at _ _ _ _ hk hy] at key
  exact key

theorem ColsOrtho.whole {p n : Nat} {A Q Rb Q' R' : Nat → Nat → Mat R} (hI : MgsInput ex p n A Q Rb)
    (P : MgsPost ex p n A Q Rb Q' R')
    (O : ColsOrtho p n (fun i => (A i 0).nRows) (fun j => (A 0 j).nCols) Q') :
    OrthoCols (Mat.hier p n A).nRows (Mat.hier p n A).nCols (Mat.hier p n Q').entry := by
  obtain ⟨hp, hn, hw⟩ := hI.awf
  have ent : ∀ i < p, ∀ j < n, ∀ u < (A i 0).nRows, ∀ v < (A 0 j).nCols, (Mat.hier p n Q').entry
      (psum (fun i => (A i 0).nRows) i + u) (psum (fun j => (A 0 j).nCols) j + v) = (Q' i j).entry u v :=
    fun i hi j hj u hu v hv => entry_at (h := fun i => (A i 0).nRows) (w := fun j => (A 0 j).nCols)
      (fun a ha => (P.qdims hI ha hn).1) (fun b hb => (P.qdims hI hp hb).2) hi hj hu hv
  intro x hx y hy
  rw [nCols_hier] at hx hy
  obtain ⟨k, hk1, s, hs, rfl⟩ := exists_block _ _ x hx
  obtain ⟨l, hl, t, ht, rfl⟩ := exists_block _ _ y hy
  rw [nRows_hier, sum_blocks]
  refine Eq.trans (Finset.sum_congr rfl fun i hi => Finset.sum_congr rfl fun u hu => ?_)
    ((O k hk1 l hl s hs t ht).trans (if_congr ⟨?_, fun e => ?_⟩ rfl rfl))
  · rw [ent i (mem_range.1 hi) k hk1 u (mem_range.1 hu) s hs, ent i (mem_range.1 hi) l hl u (mem_range.1 hu) t ht]
  · rintro ⟨rfl, rfl⟩
    rfl
  · have := (locate_at _ n k s hk1 hs).symm.trans ((congrArg _ e).trans (locate_at _ n l t hl ht))
    exact ⟨congrArg Prod.fst this, congrArg Prod.snd this⟩

/-- **C55**: `mgs_qr` yields a `Q` with orthonormal columns, for any numbers of blocks, any
kinds of blocks and nested diagonal blocks of `R`, if the columns of the input are
linearly independent.  Low-rank blocks of the input must have orthonormal left factors
and the low-rank operations must keep them so; without low-rank blocks nothing is assumed
of those operations beyond the sizes of their results. -/
theorem C55_orthonormal (hL : L.Qr) (hLo : L.QrOrtho) (hf : o.Fits False) (hex : ex → o.Exact False)
    {gfuel fuel qp qn rr rc : Nat} (hI : MgsInput ex p n A Q Rb)
    (hlo : ∀ i < p, ∀ j < n, (A i j).All LowRank.LeftOrth)
    (hk : (∀ i < p, ∀ j < n, (A i j).All (fun _ => False)) ∨ o.OrthoResults)
    (hind : (Mat.hier p n A).IndepCols) {Q' R' : Nat → Nat → Mat R}
    (h : mgsHier L o gfuel fuel p n A qp qn Q rr rc Rb = .ok (Q', R')) :
    OrthoCols (Mat.hier p n A).nRows (Mat.hier p n A).nCols (Mat.hier p n Q').entry := by
  obtain ⟨-, -, -, -, hm⟩ := mgsHier_spec hL hf hex gfuel fuel _ _ _ _ _ _ _ _ _ _ h
  have P := hm hI
  exact ColsOrtho.whole hI P (mgsHier_ortho hL hLo hf hex gfuel fuel _ _ _ _ _ _ _ _ _ _ h hI hlo hk hind.grid)

end

section
variable {R : Type} [CommRing R] [DecidableEq R] {L : Lapack R} {o : LrOps R} {T : LowRank R → Prop}

/-- Arguments of `mgs_qr` for which it is shown to return: `p`-by-`n` tiles, dense or
low-rank with `T`, of consistent sizes in `A`, `Q` and `R`; the diagonal tiles of `R` are
dense, and every block column of `A` has a dense tile that is not wide. -/
structure MgsTileInput (T : LowRank R → Prop) (p n : Nat) (A Q Rb : Nat → Nat → Mat R) : Prop where
  a : (Mat.hier p n A).WF ∧ (Mat.hier p n A).Square
  q : (Mat.hier p n Q).WF ∧ (Mat.hier p n Q).Square
  r : (Mat.hier n n Rb).WF ∧ (Mat.hier n n Rb).Square
  tile : ∀ i < p, ∀ j < n, ((A i j).IsTile ∧ (A i j).All T) ∧ (Q i j).IsTile ∧ (Q i j).All T
  rtile : ∀ i < n, ∀ j < n, (Rb i j).IsTile ∧ (Rb i j).All T
  rows : ∀ i < p, (Q i 0).nRows = (A i 0).nRows
  cols : ∀ j < n, (Q 0 j).nCols = (A 0 j).nCols ∧ (Rb j 0).nRows = (A 0 j).nCols ∧ (Rb 0 j).nCols = (A 0 j).nCols
  diag : ∀ j < n, ∃ d, Rb j j = .dense d
  tall : ∀ j < n, ∃ i < p, ∃ d : Dense R, A i j = .dense d ∧ d.cols ≤ d.rows

/-- **C55**, termination: `mgs_qr` returns on block matrices of tiles. -/
theorem C55_returns (hf : o.Fits False) (hT : o.Total False T) {gfuel fuel p n : Nat} (hg : 1 ≤ gfuel)
    (hfu : 1 ≤ fuel) {A Q Rb : Nat → Nat → Mat R} (hI : MgsTileInput T p n A Q Rb) :
    ∃ Q' R', mgsHier L o gfuel fuel p n A p n Q n n Rb = .ok (Q', R') := by
  obtain ⟨⟨aw, as⟩, ⟨qw, qs⟩, ⟨rw', rs⟩, tile, rtile, rows, cols, diag, tall⟩ := hI
  obtain ⟨hp, hn, aw⟩ := aw
  obtain ⟨x, hx, -⟩ := mgsHier_total (L := L) (h := fun i => (A i 0).nRows) (w := fun j => (A 0 j).nCols) (A := A) (C := Q)
    (Rb := Rb) hf hT hg hfu hp
    (fun i hi j hj => ⟨(aw i hi j hj).1, as i hi j hj, (tile i hi j hj).1.1, (tile i hi j hj).1.2, (aw i hi j hj).2.1,
      (aw i hi j hj).2.2⟩)
    (fun i hi j hj => ⟨(qw.2.2 i hi j hj).1, qs i hi j hj, (tile i hi j hj).2.1, (tile i hi j hj).2.2,
      (qw.2.2 i hi j hj).2.1.trans (rows i hi), (qw.2.2 i hi j hj).2.2.trans (cols j hj).1⟩)
    (fun i hi j hj => ⟨(rw'.2.2 i hi j hj).1, rs i hi j hj, (rtile i hi j hj).1, (rtile i hi j hj).2,
      (rw'.2.2 i hi j hj).2.1.trans (cols i hi).2.1, (rw'.2.2 i hi j hj).2.2.trans (cols j hj).2.2⟩)
    diag (fun j hj => by
      obtain ⟨i, hi, d, e, hd⟩ := tall j hj
      have := aw i hi j hj
      rw [e] at this
      refine ⟨i, hi, ?_, d, e⟩
      rw [← this.2.1, ← this.2.2]
      exact hd)
  exact ⟨x.1, x.2, hx⟩

/-- Arguments of `mgs_qr` for which it is shown to return, nested blocks included: regular
`b`-by-`b` subdivisions of at most `d` levels, low-rank blocks with `T`, consistent sizes; in
each block column every block of `A` is subdivided at most where the diagonal block of `R`
is, and some block just as far. -/
structure MgsNestedInput (T : LowRank R → Prop) (b d p n : Nat) (A Q Rb : Nat → Nat → Mat R) : Prop where
  a : (Mat.hier p n A).WF
  ablk : ∀ i < p, ∀ j < n, (A i j).Regular b ∧ (A i j).Square ∧ (A i j).All T ∧ (A i j).depth ≤ d
  qblk : ∀ i < p, ∀ j < n, ((Q i j).Regular b ∧ (Q i j).Square ∧ (Q i j).All T ∧ (Q i j).depth ≤ d) ∧
    (Q i j).nRows = (A i j).nRows ∧ (Q i j).nCols = (A i j).nCols
  rblk : ∀ i < n, ∀ j < n, ((Rb i j).Regular b ∧ (Rb i j).Square ∧ (Rb i j).All T ∧ (Rb i j).depth ≤ d) ∧
    (Rb i j).nRows = (A 0 i).nCols ∧ (Rb i j).nCols = (A 0 j).nCols
  fits : ∀ i < p, ∀ j < n, ColFits (Rb j j) (A i j)
  full : ∀ j < n, ∃ i < p, ColFull (Rb j j) (A i j)
  same : ∀ j < n, (∃ rr rc blk, Rb j j = .hier rr rc blk) → ∀ i < p, (A i j).SameShape (Q i j)

/-- **C55**, termination: `mgs_qr` returns on nested block matrices. -/
theorem C55_returns_nested (hf : o.Fits False) (hT : o.Total False T) (hM : MixStable T) {gfuel fuel b d p n : Nat}
    (hb : 2 ≤ b) (hg : 6 * d + 1 ≤ gfuel) (hfu : d + 1 ≤ fuel) {A Q Rb : Nat → Nat → Mat R}
    (hI : MgsNestedInput T b d p n A Q Rb) :
    ∃ Q' R', mgsHier L o gfuel fuel p n A p n Q n n Rb = .ok (Q', R') := by
  obtain ⟨⟨hp, hn, aw⟩, ablk, qblk, rblk, fits, full, same⟩ := hI
  obtain ⟨x, hx, -⟩ := mgsHier_nest (L := L) hf hT hM hb hg (d + 1) fuel hfu p n (fun i => (A i 0).nRows)
    (fun j => (A 0 j).nCols) A Q Rb ⟨hp, hn,
      fun i hi j hj => by
        obtain ⟨h1, h2, h3, h4⟩ := ablk i hi j hj
        exact ⟨h1, h2, h3, h4, (aw i hi j hj).2.1, (aw i hi j hj).2.2⟩,
      fun i hi j hj => by
        obtain ⟨⟨h1, h2, h3, h4⟩, h5, h6⟩ := qblk i hi j hj
        exact ⟨h1, h2, h3, h4, h5.trans (aw i hi j hj).2.1, h6.trans (aw i hi j hj).2.2⟩,
      fun i hi j hj => by
        obtain ⟨⟨h1, h2, h3, h4⟩, h5, h6⟩ := rblk i hi j hj
        exact ⟨h1, h2, h3, h4, h5, h6⟩,
      fits, full, same, fun j hj => by
        have := (rblk j hj j hj).1.2.2.2
        omega⟩
  exact ⟨x.1, x.2, hx⟩

end

end Mat

/-- LAPACK routines as assumed exist. -/
theorem Lapack.exists_qr : ∃ L : Lapack ℝ, L.Qr ∧ L.QrOrtho := by
  have g : ∀ A : Dense ℝ, ∃ x : (Nat → Nat → ℝ) × (Nat → Nat → ℝ), A.cols ≤ A.rows →
      OrthoCols A.rows A.cols x.1 ∧
      (∀ i < A.rows, ∀ j < A.cols, ∑ l ∈ range A.cols, x.1 i l * x.2 l j = A.val i j) ∧
      ∀ i < A.cols, ∀ j < i, x.2 i j = 0 := by
    intro A
    by_cases hle : A.cols ≤ A.rows
    · obtain ⟨V, T, -, -, -, ho, hz⟩ := exists_reflector hle (fun c i => c ≤ i) (fun c => le_refl c)
        (fun _ _ h => h) (fun s c i _ h _ => h.le) A.val (fun c _ i _ h hn => absurd h.le hn)
      refine ⟨(reflector A.cols V T, fun i j => ∑ l ∈ range A.rows, reflector A.cols V T l i * A.val l j), fun _ => ⟨?_, ?_, ?_⟩⟩
      · intro a ha b hb
        exact (ho a (by omega) b (by omega)).1
      · intro i hi j hj
        have e : ∑ l ∈ range A.rows, reflector A.cols V T i l * ∑ k ∈ range A.rows, reflector A.cols V T k l * A.val k j =
            A.val i j := by
          simp only [Finset.mul_sum]
          rw [Finset.sum_comm]
          rw [Finset.sum_eq_single_of_mem i (mem_range.2 hi)]
          · simp only [← mul_assoc]
            rw [← Finset.sum_mul, (ho i hi i hi).2]
            simp
          · intro k hk hne
            simp only [← mul_assoc]
            rw [← Finset.sum_mul, (ho i hi k (mem_range.1 hk)).2, if_neg (Ne.symm hne), zero_mul]
        rw [← e]
        refine Finset.sum_subset (fun l hl => ?_) (fun l hl hnl => ?_)
        · rw [mem_range] at hl ⊢
          omega
        · rw [mem_range] at hl hnl
          show _ * (∑ k ∈ range A.rows, reflector A.cols V T k l * A.val k j) = 0
          rw [hz l hl j hj (by omega), mul_zero]
      · intro i hi j hji
        exact hz i (by omega) j (by omega) hji
    · exact ⟨(fun _ _ => 0, fun _ _ => 0), fun h => absurd h hle⟩
  choose x hx using g
  exact ⟨{
    qr := fun A _ => x A
    rq := fun A _ => (A.val, A.val)
    svd := fun A => (A.val, fun _ => 0, A.val)
    truncRank := fun _ _ => 0
    geqp3 := fun A _ => (0, A.val, A.val)
    random := fun _ _ _ _ _ => 0 }, ⟨fun A h => (hx A h).2.1, fun A h => (hx A h).2.2⟩, fun A h => (hx A h).1⟩

/-! ### the hypotheses can be met -/

section Examples

theorem orthOps_results {R : Type} [CommRing R] : (orthOps R).OrthoResults where
  add := orthOps_leftOrth
  ofEps := by
    intro d e l h
    cases Except.ok.inj h
    exact keepRight_leftOrth d

/-- 3-by-2 tiles of order 2: the identity on the block diagonal, low-rank tiles off the
diagonal. -/
def mgsTiles (i j : Nat) : Mat ℝ :=
  if i = j then .dense (Dense.ident 2 2)
  else .lowRank (keepRight ⟨2, 2, fun r s => if i = 2 then (r : ℝ) + 3 * s + j else 0⟩)

/-- 2-by-2 tiles of order 2, low-rank off the diagonal. -/
def mgsTilesR (i j : Nat) : Mat ℝ :=
  if i = j then .dense (Dense.zero 2 2) else .lowRank (keepRight (Dense.zero 2 2))

theorem mgsTiles_tile (i j : Nat) : (mgsTiles i j).EvenBlock True ∧ (mgsTiles i j).IsTile ∧
    (mgsTiles i j).All LowRank.LeftOrth ∧ (mgsTiles i j).nRows = 2 ∧ (mgsTiles i j).nCols = 2 := by
  unfold mgsTiles
  split
  · exact ⟨Mat.EvenBlock.dense _, trivial, trivial, rfl, rfl⟩
  · exact ⟨⟨⟨rfl, rfl, rfl, rfl, rfl⟩, rfl, Or.inr trivial, trivial⟩, trivial, keepRight_leftOrth _, rfl, rfl⟩

theorem mgsTilesR_tile (i j : Nat) : (mgsTilesR i j).EvenBlock True ∧ (mgsTilesR i j).IsTile ∧
    (mgsTilesR i j).nRows = 2 ∧ (mgsTilesR i j).nCols = 2 := by
  unfold mgsTilesR
  split
  · exact ⟨Mat.EvenBlock.dense _, trivial, rfl, rfl⟩
  · exact ⟨⟨⟨rfl, rfl, rfl, rfl, rfl⟩, rfl, Or.inr trivial, trivial⟩, trivial, rfl, rfl⟩

theorem mgsTiles_entry : ∀ x < 4, ∀ y < 4, (Mat.hier 3 2 mgsTiles).entry x y = if x = y then 1 else 0 := by
  have t : BlrTiles 3 2 2 mgsTiles := ⟨fun i _ j _ => (mgsTiles_tile i j).2.2.2,
    fun i _ j _ => ⟨(mgsTiles_tile i j).1.wf, (mgsTiles_tile i j).2.1⟩⟩
  intro x hx y hy
  have := t.entry (by omega) (by omega) (f := fun x y => if x < 4 then (if x = y then 1 else 0)
      else ((x - 4 : Nat) : ℝ) + 3 * ((y % 2 : Nat) : ℝ) + ((y / 2 : Nat) : ℝ)) (by
    intro i hi j hj r hr s hs
    by_cases e : i = j
    · subst e
      rw [mgsTiles, if_pos rfl, if_pos (by omega)]
      show (if r = s then (1 : ℝ) else 0) = _
      exact if_congr (by omega) rfl rfl
    · rw [mgsTiles, if_neg e]
      refine (keepRight_entry _ hr s).trans ?_
      by_cases h2 : i = 2
      · subst h2
        rw [if_neg (by omega)]
        simp only [if_true]
        rw [show 2 * 2 + r - 4 = r by omega, show (j * 2 + s) % 2 = s by omega, show (j * 2 + s) / 2 = j by omega]
      · rw [if_pos (by omega), if_neg (by omega)]
        simp only [if_neg h2]) x (by omega) y (by omega)
  rw [this, if_pos hx]

theorem mgsTiles_indep : (Mat.hier 3 2 mgsTiles).IndepCols := by
  intro c h y hy
  have hc : (Mat.hier 3 2 mgsTiles).nCols = 4 := rfl
  have hr : (Mat.hier 3 2 mgsTiles).nRows = 6 := rfl
  rw [hc] at hy
  have := h y (by rw [hr]; omega)
  rw [hc, Finset.sum_eq_single_of_mem y (mem_range.2 hy)] at this
  · rwa [mgsTiles_entry y hy y hy, if_pos rfl, one_mul] at this
  · intro b hb hne
    rw [mgsTiles_entry y hy b (mem_range.1 hb), if_neg (Ne.symm hne), zero_mul]

/-- The hypotheses of both theorems hold for these arguments. -/
example : ∃ L : Lapack ℝ, L.Qr ∧ L.QrOrtho ∧ (orthOps ℝ).Fits False ∧ (orthOps ℝ).Exact False ∧
    (orthOps ℝ).Total False (fun _ => True) ∧ (orthOps ℝ).OrthoResults ∧
    Mat.MgsInput True 3 2 mgsTiles mgsTiles mgsTilesR ∧ (∀ i < 3, ∀ j < 2, (mgsTiles i j).All LowRank.LeftOrth) ∧
    (Mat.hier 3 2 mgsTiles).IndepCols ∧ Mat.MgsTileInput (fun _ => True) 3 2 mgsTiles mgsTiles mgsTilesR ∧
    ∃ Q' R', Mat.mgsHier L (orthOps ℝ) 1 1 3 2 mgsTiles 3 2 mgsTiles 2 2 mgsTilesR = .ok (Q', R') ∧
      OrthoCols 6 4 (Mat.hier 3 2 Q').entry := by
  obtain ⟨L, h1, h2⟩ := Lapack.exists_qr
  have tw : ∀ i j, (mgsTiles i j).WF ∧ (mgsTiles i j).nRows = 2 ∧ (mgsTiles i j).nCols = 2 := fun i j =>
    ⟨(mgsTiles_tile i j).1.wf, (mgsTiles_tile i j).2.2.2⟩
  have tr : ∀ i j, (mgsTilesR i j).WF ∧ (mgsTilesR i j).nRows = 2 ∧ (mgsTilesR i j).nCols = 2 := fun i j =>
    ⟨(mgsTilesR_tile i j).1.wf, (mgsTilesR_tile i j).2.2⟩
  have wf : (Mat.hier 3 2 mgsTiles).WF := ⟨by omega, by omega, fun i _ j _ => ⟨(tw i j).1, by
    rw [(tw i j).2.1, (tw i 0).2.1], by rw [(tw i j).2.2, (tw 0 j).2.2]⟩⟩
  have wfr : (Mat.hier 2 2 mgsTilesR).WF := ⟨by omega, by omega, fun i _ j _ => ⟨(tr i j).1, by
    rw [(tr i j).2.1, (tr i 0).2.1], by rw [(tr i j).2.2, (tr 0 j).2.2]⟩⟩
  have hI : Mat.MgsInput True 3 2 mgsTiles mgsTiles mgsTilesR :=
    ⟨wf, fun i _ j _ => (mgsTiles_tile i j).1, fun i _ j _ => ⟨(mgsTiles_tile i j).1, rfl, rfl⟩,
      fun i _ j _ => ⟨(mgsTilesR_tile i j).1, by rw [(tr i j).2.1, (tw 0 i).2.2], by rw [(tr i j).2.2, (tw 0 j).2.2]⟩,
      fun _ _ _ _ _ => Mat.SameShape.refl _⟩
  have all : ∀ {M : Mat ℝ}, M.IsTile → M.All (fun _ => True) := by
    intro M h
    cases M with
    | dense | lowRank | empty => trivial
    | hier => exact h.elim
  have hI2 : Mat.MgsTileInput (fun _ => True) 3 2 mgsTiles mgsTiles mgsTilesR :=
    ⟨⟨wf, fun i _ j _ => (mgsTiles_tile i j).1.sqr⟩, ⟨wf, fun i _ j _ => (mgsTiles_tile i j).1.sqr⟩,
      ⟨wfr, fun i _ j _ => (mgsTilesR_tile i j).1.sqr⟩,
      fun i _ j _ => ⟨⟨(mgsTiles_tile i j).2.1, all (mgsTiles_tile i j).2.1⟩, (mgsTiles_tile i j).2.1,
        all (mgsTiles_tile i j).2.1⟩,
      fun i _ j _ => ⟨(mgsTilesR_tile i j).2.1, all (mgsTilesR_tile i j).2.1⟩, fun _ _ => rfl,
      fun j _ => ⟨rfl, by rw [(tr j 0).2.1, (tw 0 j).2.2], by rw [(tr 0 j).2.2, (tw 0 j).2.2]⟩,
      fun j _ => ⟨Dense.zero 2 2, by simp [mgsTilesR]⟩,
      fun j hj => ⟨j, by omega, Dense.ident 2 2, by simp [mgsTiles], le_rfl⟩⟩
  have hlo : ∀ i < 3, ∀ j < 2, (mgsTiles i j).All LowRank.LeftOrth := fun i _ j _ => (mgsTiles_tile i j).2.2.1
  obtain ⟨Q', R', h⟩ := Mat.C55_returns (L := L) (gfuel := 1) (fuel := 1) orthOps_fits orthOps_total le_rfl le_rfl hI2
  exact ⟨L, h1, h2, orthOps_fits, orthOps_exact, orthOps_total, orthOps_results, hI, hlo, mgsTiles_indep, hI2, Q', R', h,
    Mat.C55_orthonormal h1 h2 orthOps_fits (fun _ => orthOps_exact) hI hlo (Or.inr orthOps_results) mgsTiles_indep h⟩

/-- A nested case: two diagonal blocks, each subdivided into 2-by-2 dense blocks of order 1,
low-rank blocks beside them. -/
def mgsNested (i j : Nat) : Mat ℝ :=
  if i = j then .hier 2 2 fun r s => .dense ⟨1, 1, fun _ _ => if r = s then 1 else 0⟩
  else .lowRank (keepRight (Dense.zero 2 2))

theorem mgsNested_block (i j : Nat) : (mgsNested i j).Regular 2 ∧ (mgsNested i j).Square ∧
    (mgsNested i j).All (fun _ => True) ∧ (mgsNested i j).depth ≤ 1 ∧ (mgsNested i j).nRows = 2 ∧
    (mgsNested i j).nCols = 2 := by
  unfold mgsNested
  split
  · refine ⟨⟨⟨by omega, by omega, fun _ _ _ _ => ⟨trivial, rfl, rfl⟩⟩, fun r hr s hs => ⟨trivial, ?_, ?_⟩, rfl, rfl,
      fun _ _ _ _ => trivial⟩, fun _ _ _ _ => trivial, fun _ _ _ _ => trivial, ?_, rfl, rfl⟩
    · interval_cases r <;> rfl
    · interval_cases s <;> rfl
    · simp [Mat.depth]
  · exact ⟨⟨⟨rfl, rfl, rfl, rfl, rfl⟩, trivial, trivial⟩, rfl, trivial, Nat.zero_le _, rfl, rfl⟩

/-- The hypotheses of `C55_returns_nested` hold for these arguments, and the factorization
returns. -/
example (L : Lapack ℝ) : Mat.MixStable (fun _ : LowRank ℝ => True) ∧
    Mat.MgsNestedInput (fun _ => True) 2 1 2 2 mgsNested mgsNested mgsNested ∧
    ∃ Q' R', Mat.mgsHier L (orthOps ℝ) 7 2 2 2 mgsNested 2 2 mgsNested 2 2 mgsNested = .ok (Q', R') := by
  have hm : Mat.MixStable (fun _ : LowRank ℝ => True) := fun _ _ _ _ _ _ _ _ _ _ => trivial
  have ok : ∀ i j, (mgsNested i j).Regular 2 ∧ (mgsNested i j).Square ∧ (mgsNested i j).All (fun _ => True) ∧
      (mgsNested i j).depth ≤ 1 := fun i j =>
    ⟨(mgsNested_block i j).1, (mgsNested_block i j).2.1, (mgsNested_block i j).2.2.1, (mgsNested_block i j).2.2.2.1⟩
  have sz := fun i j => (mgsNested_block i j).2.2.2.2
  have hI : Mat.MgsNestedInput (fun _ => True) 2 1 2 2 mgsNested mgsNested mgsNested := by
    refine ⟨⟨by omega, by omega, fun i _ j _ => ⟨(ok i j).1.wf, ?_, ?_⟩⟩, fun i _ j _ => ok i j,
      fun i _ j _ => ⟨ok i j, rfl, rfl⟩, fun i _ j _ => ⟨ok i j, ?_, ?_⟩, fun i _ j _ => ?_, fun j hj => ⟨j, hj, ?_⟩,
      fun j _ _ i _ => Mat.SameShape.refl _⟩
    · rw [(sz i j).1, (sz i 0).1]
    · rw [(sz i j).2, (sz 0 j).2]
    · rw [(sz i j).1, (sz 0 i).2]
    · rw [(sz i j).2, (sz 0 j).2]
    · rw [show mgsNested j j = .hier 2 2 fun r s => .dense ⟨1, 1, fun _ _ => if r = s then 1 else 0⟩ from if_pos rfl]
      unfold mgsNested
      split
      · exact ⟨rfl, rfl, fun _ _ _ _ => trivial⟩
      · trivial
    · rw [show mgsNested j j = .hier 2 2 fun r s => .dense ⟨1, 1, fun _ _ => if r = s then 1 else 0⟩ from if_pos rfl]
      exact ⟨rfl, rfl, fun c hc => ⟨c, hc, le_refl 1⟩⟩
  exact ⟨hm, hI, Mat.C55_returns_nested (b := 2) (d := 1) orthOps_fits orthOps_total hm (by omega) (by omega) (by omega) hI⟩

end Examples

end Verif
