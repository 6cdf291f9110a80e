import Verif.Lemmas.FloatQrOrth
import Verif.Lemmas.FloatQrCols

/-!
Rounding errors of tiled Householder QR: the tile kernels on a block column.
-/

set_option linter.unusedSectionVars false
set_option linter.unusedVariables false

namespace Verif
open Finset
open Mat (locate locate_at locate_spec exists_block LowEq putRow stepPairs mem_stepPairs pairs mem_pairs pairs_succ torder mem_torder)
open TileOps (tstep runT colFactor)

/-! ### block columns as matrices -/

/-- Values given by block, row inside the block and column, as a matrix. -/
def flat (h : Nat → Nat) (p : Nat) (f : Nat → Nat → Nat → ℝ) (g y : Nat) : ℝ :=
  f (locate h p g).1 (locate h p g).2 y

theorem flat_at {h : Nat → Nat} {p b r : Nat} {f : Nat → Nat → Nat → ℝ} (hb : b < p) (hr : r < h b) (y : Nat) :
    flat h p f (psum h b + r) y = f b r y := by
  unfold flat
  rw [locate_at h p b r hb hr]

/-- The matrix of a block column. -/
def cm (h : Nat → Nat) (p : Nat) (c : Nat → Mat ℝ) : Nat → Nat → ℝ := flat h p (fun b r y => (c b).entry r y)

/-- The rows tile `(i,k)` acts on: the first `n` rows of block `k` and the rows of block `i`. -/
def rho (h : Nat → Nat) (n k i a : Nat) : Nat := if a < n then psum h k + a else psum h i + (a - n)

section
variable {h : Nat → Nat} {p n k i : Nat}

theorem rho_picks (hi : i < p) (hk : n = 0 ∨ (k < i ∧ n ≤ h k)) : Picks (n + h i) (psum h p) (rho h n k i) := by
  have h1 := psum_le h hi
  have h2 : k < i → psum h k + h k ≤ psum h i := fun hh => psum_le h hh
  refine ⟨fun a ha => ?_, fun a ha b hb e => ?_⟩
  · unfold rho
    split
    · rcases hk with rfl | ⟨hk, hn⟩
      · omega
      · have := h2 hk; omega
    · omega
  · unfold rho at e
    rcases hk with rfl | ⟨hk, hn⟩
    · split at e <;> split at e <;> omega
    · have := h2 hk
      split at e <;> split at e <;> omega

theorem flat_rho {f : Nat → Nat → Nat → ℝ} (hi : i < p) (hk : n = 0 ∨ (k < i ∧ n ≤ h k)) {a : Nat}
    (ha : a < n + h i) (y : Nat) : flat h p f (rho h n k i a) y = stack n (f k) (f i) a y := by
  unfold rho stack
  split
  · rcases hk with rfl | ⟨hk, hn⟩
    · omega
    · exact flat_at (by omega) (by omega) y
  · exact flat_at hi (by omega) y

theorem rho_out {b r : Nat} (hr : r < h b) (hg : ∀ a < n + h i, psum h b + r ≠ rho h n k i a) :
    b ≠ i ∧ (b = k → n ≤ r) := by
  refine ⟨?_, ?_⟩
  · rintro rfl
    refine hg (n + r) (by omega) ?_
    unfold rho
    rw [if_neg (by omega), Nat.add_sub_cancel_left]
  · rintro rfl
    by_contra hn
    refine hg r (by omega) ?_
    unfold rho
    rw [if_pos (by omega)]

end

/-- A block column of dense tiles. -/
def DCol (h : Nat → Nat) (p n : Nat) (c : Nat → Mat ℝ) : Prop :=
  ∀ i < p, ∃ d : Dense ℝ, c i = .dense d ∧ d.rows = h i ∧ d.cols = n

/-- How many rows of block `k` tile `e = (k,i)` acts on besides block `i`. -/
def topRows (w : Nat → Nat) (e : Nat × Nat) : Nat := if e.2 = e.1 then 0 else w e.1

/-- The reflectors of tile `e` as a matrix. -/
noncomputable def tileOrth (h w : Nat → Nat) (trans : Bool) (e : Nat × Nat) (P : Nat → Nat → ℝ) : Nat → Nat → ℝ :=
  embOrth (topRows w e + h e.2) (rho h (topRows w e) e.1 e.2) (opOrth trans P)

/-- Tile `e` has a place in the matrix. -/
structure TileIn (p : Nat) (h w : Nat → Nat) (e : Nat × Nat) : Prop where
  le : e.1 ≤ e.2
  lt : e.2 < p
  thin : w e.1 ≤ h e.1

theorem TileIn.top {p : Nat} {h w : Nat → Nat} {e : Nat × Nat} (H : TileIn p h w e) :
    topRows w e = 0 ∨ (e.1 < e.2 ∧ topRows w e ≤ h e.1) := by
  have := H.le
  have := H.thin
  unfold topRows
  split
  · exact Or.inl rfl
  · exact Or.inr ⟨by omega, H.thin⟩

theorem tileOrth_orth {p : Nat} {h w : Nat → Nat} {e : Nat × Nat} (H : TileIn p h w e) {trans : Bool}
    {P : Nat → Nat → ℝ} (hP : Orthogonal (topRows w e + h e.2) P) : Orthogonal (psum h p) (tileOrth h w trans e P) :=
  embOrth_orth (rho_picks H.lt H.top) (opOrth_orth hP)

/-- The tile `V`, `T` holds reflectors that act like the orthogonal matrix `P`. -/
def ReflOk (F : FlQr) (ε : ℝ) (p : Nat) (h w : Nat → Nat) (V T : Mat ℝ) (e : Nat × Nat) (P : Nat → Nat → ℝ) : Prop :=
  Orthogonal (topRows w e + h e.2) P ∧ ∀ (trans : Bool) (n : Nat) (c : Nat → Mat ℝ), DCol h p n c →
    ∃ c', tstep F.tiles (fun _ _ => V) (fun _ _ => T) trans e c = .ok c' ∧ DCol h p n c' ∧
      ActsLike (psum h p) n (1 + ε) (tileOrth h w trans e P) (cm h p c) (cm h p c')

theorem tstep_const (F : FlQr) (Y T : Nat → Nat → Mat ℝ) (trans : Bool) (e : Nat × Nat) (c : Nat → Mat ℝ) :
    tstep F.tiles (fun _ _ => Y e.2 e.1) (fun _ _ => T e.2 e.1) trans e c = tstep F.tiles Y T trans e c := by
  obtain ⟨k, i⟩ := e
  unfold tstep
  by_cases h : i = k
  · subst h
    rfl
  · rw [if_neg h, if_neg h]

theorem tiles_low (F : FlQr) : F.tiles.Low where
  larfb := by
    rintro X Y ⟨a, b, rfl, rfl, h1, h2, h3⟩ trans t c
    have ht := LowEq.tri (R := ℝ) ⟨a, b, rfl, rfl, h1, h2, h3⟩
    have e : ∀ t c : Dense ℝ, F.larfb a t c trans = F.larfb b t c trans := by
      intro t c
      simp only [FlQr.larfb, h1, h2, ht]
    cases t <;> cases c <;> simp only [FlQr.tiles, e]
  tpqrt := by
    intro A B T y hy
    have hd : ∃ a b t : Dense ℝ, A = .dense a ∧ B = .dense b ∧ T = .dense t := by
      cases A <;> cases B <;> cases T <;> first | exact ⟨_, _, _, rfl, rfl, rfl⟩ | (simp [FlQr.tiles] at hy)
    obtain ⟨a, b, t, rfl, rfl, rfl⟩ := hd
    simp only [FlQr.tiles] at hy
    rw [except_bind_eq_ok] at hy
    obtain ⟨x, hx, hy⟩ := hy
    rw [← Except.ok.inj hy]
    simp only [Dense.tpqrt] at hx
    split at hx
    case isFalse => cases hx
    case isTrue hc =>
    rw [← Except.ok.inj hx]
    refine ⟨_, _, rfl, rfl, rfl, rfl, fun i j hij => ?_⟩
    dsimp only
    rw [if_neg (by omega)]

theorem ReflOk.low {F : FlQr} {ε : ℝ} {p : Nat} {h w : Nat → Nat} {V V' T : Mat ℝ} {k : Nat} {P : Nat → Nat → ℝ}
    (H : ReflOk F ε p h w V T (k, k) P) (hl : LowEq V V') : ReflOk F ε p h w V' T (k, k) P := by
  refine ⟨H.1, fun trans n c hc => ?_⟩
  obtain ⟨c', h1, h2⟩ := H.2 trans n c hc
  refine ⟨c', ?_, h2⟩
  rw [← h1]
  unfold tstep
  simp only [if_true]
  rw [(tiles_low F).larfb V V' hl]

section
variable {F : FlQr} {ε : ℝ} {p : Nat} {h w : Nat → Nat}

/-- `geqrt` on a dense tile. -/
theorem geqrt_fl {nb : Nat} (hF : F.Sound nb ε) (hnb : ∀ i < p, h i ≤ nb) (hε : 0 ≤ ε) {k : Nat} (hk : k < p) (hw : w k ≤ h k) {A T0 : Dense ℝ}
    (hr : A.rows = h k) (hc : A.cols = w k) (t1 : T0.rows = w k) (t2 : T0.cols = w k) :
    ∃ (P : Nat → Nat → ℝ) (v t : Dense ℝ), F.tiles.geqrt (.dense A) (.dense T0) = .ok (.dense v, .dense t) ∧
      v.rows = h k ∧ v.cols = w k ∧ t.rows = w k ∧ t.cols = w k ∧ ReflOk F ε p h w (.dense v) (.dense t) (k, k) P ∧
      frob (h k) (w k) (fun i j => (if i ≤ j then v.val i j else 0) - mulSq (h k) (opOrth true P) A.val i j) ≤
        ε * frob (h k) (w k) A.val := by
  obtain ⟨P, hP, hfac, happ⟩ := hF.geqrt A (by omega) (by have := hnb k hk; omega)
  refine ⟨P, ⟨A.rows, A.cols, (F.geqrt3 A).1⟩, ⟨A.cols, A.cols, (F.geqrt3 A).2⟩, ?_, hr, hc, hc, hc, ?_, ?_⟩
  · simp only [FlQr.tiles, Mat.geqrt, Dense.geqrt]
    rw [decide_eq_true (by omega), decide_eq_true (by omega), if_pos (by omega)]
    rfl
  · have H : TileIn p h w (k, k) := ⟨le_refl _, hk, hw⟩
    have et : topRows w (k, k) = 0 := by simp [topRows]
    refine ⟨by rw [et, Nat.zero_add]; rw [hr] at hP; exact hP, fun trans n c hcol => ?_⟩
    obtain ⟨d, ed, dr, dc⟩ := hcol k hk
    let d' : Dense ℝ := ⟨d.rows, d.cols, F.dlarfb A.cols (Dense.tri ⟨A.rows, A.cols, (F.geqrt3 A).1⟩ .lower true)
      (upperPart A.cols (F.geqrt3 A).2) trans d⟩
    refine ⟨putRow c k (.dense d'), ?_, ?_, ?_⟩
    · simp only [tstep, if_true, ed, FlQr.tiles, FlQr.larfb]
      rw [if_pos ⟨by omega, le_refl _, le_refl _, by omega⟩]
      rfl
    · intro i hi
      by_cases e : i = k
      · subst e
        exact ⟨d', by simp [putRow], dr, dc⟩
      · simp only [putRow, if_neg e]
        exact hcol i hi
    · have happ := happ trans d (by omega)
      rw [applyOrth_op, dr, dc, hr] at happ
      unfold tileOrth
      refine ActsLike.emb (rho_picks H.lt H.top) hε ?_ ?_
      · intro g hg hout j hj
        obtain ⟨b, hb, r, hrr, rfl⟩ := exists_block h p g hg
        have := (rho_out hrr hout).1
        unfold cm
        rw [flat_at hb hrr, flat_at hb hrr]
        simp only [putRow, if_neg this]
      · have q : ∀ c : Nat → Mat ℝ, ∀ a < h k, ∀ j, cm h p c (rho h (topRows w (k, k)) k k a) j = (c k).entry a j := by
          intro c a ha j
          unfold cm
          rw [flat_rho H.lt H.top (by rw [et]; simp only; omega), et]
          simp [stack]
        have m : topRows w (k, k) + h (k, k).2 = h k := by rw [et, Nat.zero_add]
        rw [m]
        have e1 : (putRow c k (.dense d') k) = .dense d' := by simp [putRow]
        rw [frob_congr (Y := fun a j => F.dlarfb A.cols (Dense.tri ⟨A.rows, A.cols, (F.geqrt3 A).1⟩ .lower true)
            (upperPart A.cols (F.geqrt3 A).2) trans d a j - mulSq (h k) (opOrth trans P) d.val a j) (by
            intro a ha j hj
            dsimp only
            rw [q _ a ha, e1, mulSq_congr (n := n) (Y := d.val) (fun b hb j _ => by
              rw [q _ b hb, ed]; rfl) a hj]
            rfl),
          frob_congr (X := fun a j => cm h p c (rho h (topRows w (k, k)) k k a) j) (Y := d.val)
            (fun a ha j _ => by rw [q _ a ha, ed]; rfl)]
        exact happ
  · rw [applyOrth_op, hr, hc] at hfac
    exact hfac

/-- `tpqrt` on dense tiles. -/
theorem tpqrt_fl {nb : Nat} (hF : F.Sound nb ε) (hnb : ∀ i < p, h i ≤ nb) (hε : 0 ≤ ε) {k i : Nat} (hki : k < i) (hi : i < p) (hw : w k ≤ h k) {A B T0 : Dense ℝ}
    (hr : A.rows = h k) (hc : A.cols = w k) (br : B.rows = h i) (bc : B.cols = w k) (t1 : T0.rows = w k)
    (t2 : T0.cols = w k) :
    ∃ (P : Nat → Nat → ℝ) (a b t : Dense ℝ), F.tiles.tpqrt (.dense A) (.dense B) (.dense T0) =
        .ok (.dense a, .dense b, .dense t) ∧
      (a.rows = h k ∧ a.cols = w k ∧ b.rows = h i ∧ b.cols = w k ∧ t.rows = w k ∧ t.cols = w k) ∧
      ReflOk F ε p h w (.dense b) (.dense t) (k, i) P ∧
      frob (w k + h i) (w k) (fun r y => (if r ≤ y then a.val r y else 0) - mulSq (w k + h i) (opOrth true P)
        (stack (w k) (fun r y => if r ≤ y then A.val r y else 0) B.val) r y) ≤
        ε * frob (w k + h i) (w k) (stack (w k) (fun r y => if r ≤ y then A.val r y else 0) B.val) := by
  let A0 : Dense ℝ := ⟨B.cols, B.cols, fun i j => if i ≤ j ∧ j < B.cols then A.val i j else 0⟩
  obtain ⟨P, hP, hfac, happ⟩ := hF.tpqrt A0 B rfl rfl (by have := hnb k (by omega); omega) (by have := hnb i hi; omega)
  let x := F.tpqrt2 A0 B
  refine ⟨P, ⟨A.rows, A.cols, fun i j => if i ≤ j ∧ j < B.cols then x.1 i j else A.val i j⟩,
      ⟨B.rows, B.cols, x.2.1⟩,
      ⟨T0.rows, T0.cols, fun i j => if i < B.cols ∧ j < B.cols then x.2.2 i j else T0.val i j⟩,
      ?_, ⟨hr, hc, br, bc, t1, t2⟩, ?_, ?_⟩
  · simp only [FlQr.tiles, Dense.tpqrt]
    rw [if_pos (by omega)]
    rfl
  · have H : TileIn p h w (k, i) := ⟨by simp only; omega, hi, hw⟩
    have et : topRows w (k, i) = w k := by simp only [topRows]; rw [if_neg (by omega)]
    refine ⟨by rw [et]; rw [bc, br] at hP; exact hP, fun trans n c hcol => ?_⟩
    obtain ⟨d, ed, dr, dc⟩ := hcol k (by omega)
    obtain ⟨d2, ed2, dr2, dc2⟩ := hcol i hi
    let T1 : Dense ℝ := ⟨T0.rows, T0.cols, fun i j => if i < B.cols ∧ j < B.cols then x.2.2 i j else T0.val i j⟩
    have eT : upperPart T1.cols T1.val = upperPart B.cols x.2.2 := by
      funext a b
      simp only [upperPart, T1]
      rw [show T0.cols = B.cols by omega]
      by_cases hab : a ≤ b ∧ b < B.cols
      · rw [if_pos hab, if_pos hab, if_pos (by omega)]
      · rw [if_neg hab, if_neg hab]
    let y := F.dtprfb B.cols x.2.1 (upperPart B.cols x.2.2) trans ⟨B.cols, d2.cols, d.val⟩ d2
    let d' : Dense ℝ := ⟨d.rows, d.cols, fun i j => if i < B.cols ∧ j < d2.cols then y.1 i j else d.val i j⟩
    let d2' : Dense ℝ := ⟨d2.rows, d2.cols, y.2⟩
    refine ⟨putRow (putRow c k (.dense d')) i (.dense d2'), ?_, ?_, ?_⟩
    · simp only [tstep]
      rw [if_neg (by omega)]
      simp only [ed, ed2, FlQr.tiles, FlQr.tprfb]
      rw [show (T0.cols : Nat) = T1.cols from rfl, eT]
      rw [if_pos ⟨by omega, by simp only [T1]; omega, by simp only [T1]; omega, by simp only [T1]; omega, by omega⟩]
      simp only [show T1.cols = B.cols by simp only [T1]; omega]
      rfl
    · intro b hb
      by_cases e : b = i
      · subst e
        exact ⟨d2', by simp [putRow], dr2, dc2⟩
      · by_cases e' : b = k
        · subst e'
          exact ⟨d', by simp [putRow, e], dr, dc⟩
        · simp only [putRow, if_neg e, if_neg e']
          exact hcol b hb
    · have happ := happ trans ⟨B.cols, d2.cols, d.val⟩ d2 rfl (by omega) rfl
      dsimp only at happ
      rw [applyOrth_op, dc2, br, bc] at happ
      unfold tileOrth
      refine ActsLike.emb (rho_picks H.lt H.top) hε ?_ ?_
      · intro g hg hout j hj
        obtain ⟨b, hb, r, hrr, rfl⟩ := exists_block h p g hg
        obtain ⟨n1, n2⟩ := rho_out hrr hout
        unfold cm
        rw [flat_at hb hrr, flat_at hb hrr]
        simp only at n1 n2
        simp only [putRow, if_neg n1]
        by_cases e : b = k
        · subst e
          rw [if_pos rfl, ed]
          show (if r < B.cols ∧ j < d2.cols then y.1 r j else d.val r j) = d.val r j
          rw [if_neg]
          have := n2 rfl
          rw [et] at this
          omega
        · rw [if_neg e]
      · have q : ∀ c : Nat → Mat ℝ, ∀ a < w k + h i, ∀ j, cm h p c (rho h (topRows w (k, i)) k i a) j =
            stack (w k) (c k).entry (c i).entry a j := by
          intro c a ha j
          unfold cm
          rw [flat_rho H.lt H.top (by rw [et]; exact ha), et]
        rw [show topRows w (k, i) + h (k, i).2 = w k + h i by rw [et]]
        have e1 : (putRow (putRow c k (.dense d')) i (.dense d2')) k = .dense d' := by
          simp [putRow, show k ≠ i by omega]
        have e2 : (putRow (putRow c k (.dense d')) i (.dense d2')) i = .dense d2' := by simp [putRow]
        have q2 : ∀ a < w k + h i, ∀ j, cm h p c (rho h (topRows w (k, i)) k i a) j = stack (w k) d.val d2.val a j := by
          intro a ha j
          rw [q _ a ha, ed, ed2]
          rfl
        rw [frob_congr (Y := fun a j => stack (w k) y.1 y.2 a j - mulSq (w k + h i) (opOrth trans P)
              (stack (w k) d.val d2.val) a j) (by
            intro a ha j hj
            dsimp only
            rw [q _ a ha, e1, e2, mulSq_congr (n := n) (Y := stack (w k) d.val d2.val) (fun b hb j _ => q2 b hb j) a hj]
            congr 1
            simp only [stack]
            by_cases ha' : a < w k
            · rw [if_pos ha', if_pos ha']
              show (if a < B.cols ∧ j < d2.cols then y.1 a j else d.val a j) = _
              rw [if_pos (by omega)]
            · rw [if_neg ha', if_neg ha']
              rfl),
          frob_congr (X := fun a j => cm h p c (rho h (topRows w (k, i)) k i a) j) (fun a ha j _ => q2 a ha j)]
        have yy : y = F.dtprfb (w k) (F.tpqrt2 A0 B).2.1 (upperPart (w k) (F.tpqrt2 A0 B).2.2) trans
            ⟨w k, n, d.val⟩ d2 := by
          simp only [y, x, bc, dc2]
        rw [yy]
        exact happ
  · rw [applyOrth_op, br, bc] at hfac
    have es : ∀ l < w k + h i, ∀ j < w k, stack (w k) (A0.tri .upper false) B.val l j =
        stack (w k) (fun r y => if r ≤ y then A.val r y else 0) B.val l j := by
      intro l hl j hj
      unfold stack
      by_cases hlw : l < w k
      · rw [if_pos hlw, if_pos hlw]
        unfold Dense.tri
        by_cases e : l = j
        · subst e
          simp [A0, bc, hj]
        · by_cases e' : l < j
          · simp [A0, bc, hj, e, e', le_of_lt e']
          · simp [e, e', show ¬ l ≤ j by omega]
      · rw [if_neg hlw, if_neg hlw]
    rw [frob_congr es] at hfac
    refine le_trans (le_of_eq (frob_congr (fun r hr' y hy => ?_))) hfac
    rw [mulSq_congr (n := w k) es r hy]
    dsimp only
    rw [bc]
    by_cases e : r ≤ y
    · rw [if_pos e, if_pos e, if_pos ⟨e, hy⟩]
    · rw [if_neg e, if_neg e]

end

end Verif
