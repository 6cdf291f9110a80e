import Verif.Lemmas.FloatQrRun

/-!
Rounding errors of tiled Householder QR: the drivers.
-/

set_option linter.unusedSectionVars false
set_option linter.unusedVariables false

namespace Verif
open Finset
open Mat (LowEq putRow putCol stepPairs mem_stepPairs pairs mem_pairs pairs_succ torder mem_torder)
open TileOps (tstep runT colFactor put put_eq put_eq2)

/-- A grid of dense tiles. -/
def DGrid (h w : Nat → Nat) (p q : Nat) (A : Nat → Nat → Mat ℝ) : Prop := ∀ j < q, DCol h p (w j) (fun i => A i j)

/-- Room for the triangular factors on and below the diagonal. -/
def TGrid (w : Nat → Nat) (p q : Nat) (T : Nat → Nat → Mat ℝ) : Prop :=
  ∀ k < q, ∀ i, k ≤ i → i < p → ∃ t : Dense ℝ, T i k = .dense t ∧ t.rows = w k ∧ t.cols = w k

theorem DGrid.putCol {h w : Nat → Nat} {p q : Nat} {A : Nat → Nat → Mat ℝ} (H : DGrid h w p q A) {j : Nat}
    {c : Nat → Mat ℝ} (hc : DCol h p (w j) c) : DGrid h w p q (putCol A j c) := by
  intro j' hj'
  by_cases e : j' = j
  · subst e
    intro i hi
    obtain ⟨d, hd⟩ := hc i hi
    exact ⟨d, by simpa [Mat.putCol] using hd⟩
  · intro i hi
    obtain ⟨d, hd⟩ := H j' hj' i hi
    exact ⟨d, by simpa [Mat.putCol, e] using hd⟩

theorem blockAt_in {p q i j : Nat} (A : Nat → Nat → Mat ℝ) (hi : i < p) (hj : j < q) :
    Mat.blockAt p q A i j = .ok (A i j) := by
  unfold Mat.blockAt
  rw [decide_eq_true hi, decide_eq_true hj]
  rfl

section
variable {F : FlQr} {ε : ℝ} {p q : Nat} {h w : Nat → Nat}

theorem ReflOk.larfb {V T : Mat ℝ} {k : Nat} {P : Nat → Nat → ℝ} (H : ReflOk F ε p h w V T (k, k) P) (trans : Bool)
    {n : Nat} {c : Nat → Mat ℝ} (hc : DCol h p n c) :
    ∃ y, F.tiles.larfb trans V T (c k) = .ok y ∧ DCol h p n (putRow c k y) := by
  obtain ⟨c', h1, h2, -⟩ := H.2 trans n c hc
  simp only [tstep, if_true, except_bind_eq_ok] at h1
  obtain ⟨y, h1, h3⟩ := h1
  rw [← Except.ok.inj h3] at h2
  exact ⟨y, h1, h2⟩

theorem ReflOk.tpmqrt {V T : Mat ℝ} {k i : Nat} (hki : k < i) {P : Nat → Nat → ℝ}
    (H : ReflOk F ε p h w V T (k, i) P) (trans : Bool) {n : Nat} {c : Nat → Mat ℝ} (hc : DCol h p n c) :
    ∃ y, F.tiles.tpmqrt trans V T (c k) (c i) = .ok y ∧ DCol h p n (putRow (putRow c k y.1) i y.2) := by
  obtain ⟨c', h1, h2, -⟩ := H.2 trans n c hc
  simp only [tstep] at h1
  rw [if_neg (by omega), except_bind_eq_ok] at h1
  obtain ⟨y, h1, h3⟩ := h1
  rw [← Except.ok.inj h3] at h2
  exact ⟨y, h1, h2⟩

theorem TGrid.put {T : Nat → Nat → Mat ℝ} (H : TGrid w p q T) {k i : Nat} {t : Dense ℝ} (h1 : t.rows = w k)
    (h2 : t.cols = w k) : TGrid w p q (put T i k (.dense t)) := by
  intro k' hk' i' h3 h4
  by_cases e : i' = i ∧ k' = k
  · obtain ⟨rfl, rfl⟩ := e
    exact ⟨t, by simp [TileOps.put], h1, h2⟩
  · simp only [TileOps.put, if_neg e]
    exact H k' hk' i' h3 h4

/-- The factorization returns. -/
theorem tiledQr_returns {nb : Nat} (hF : F.Sound nb ε) (hnb : ∀ i < p, h i ≤ nb) (hε : 0 ≤ ε) (hqp : q ≤ p) (hw : ∀ k < q, w k ≤ h k)
    {A T : Nat → Nat → Mat ℝ} (hA : DGrid h w p q A) (hT : TGrid w p q T) :
    ∃ Y T', F.tiles.tiledQr p q A p q T = .ok (Y, T') ∧ DGrid h w p q Y ∧ TGrid w p q T' := by
  have key := loop_total (n := q) (s := (A, T)) (body := F.tiles.tiledStep p q p q)
    (fun _ st => DGrid h w p q st.1 ∧ TGrid w p q st.2) ⟨hA, hT⟩ (by
    rintro k hk ⟨B, S⟩ ⟨gB, gS⟩
    have hkp : k < p := by omega
    simp only at gB gS
    obtain ⟨d, ed, dr, dc⟩ := gB k hk k hkp
    obtain ⟨t, et, tr, tc⟩ := gS k hk k (le_refl _) hkp
    simp only at ed
    obtain ⟨P, v, t', hg, vr, vc, tr', tc', R0, -⟩ := geqrt_fl (p := p) hF hnb hε hkp (hw k hk) dr dc tr tc
    have gB1 : DGrid h w p q (put B k k (.dense v)) := by
      rw [put_eq]
      refine gB.putCol (fun i hi => ?_)
      by_cases e : i = k
      · subst e
        exact ⟨v, by simp [putRow], vr, vc⟩
      · simp only [putRow, if_neg e]
        exact gB k hk i hi
    obtain ⟨B1, hB1, gB1⟩ := loop_total (n := q - (k + 1)) (s := put B k k (.dense v))
      (body := fun u A => do
        let y ← F.tiles.larfb true (.dense v) (.dense t') (A k (k + 1 + u))
        .ok (put A k (k + 1 + u) y)) (fun _ A => DGrid h w p q A) gB1 (by
        intro u hu A gA
        obtain ⟨y, hy, gy⟩ := R0.larfb true (gA (k + 1 + u) (by omega))
        refine ⟨_, by rw [hy, except_bind_ok], ?_⟩
        rw [put_eq]
        exact gA.putCol gy)
    obtain ⟨⟨B2, S2⟩, hB2, g2⟩ := loop_total (n := p - (k + 1)) (s := (B1, put S k k (.dense t')))
      (body := fun u st => F.tiles.tiledInner p q p q k (k + 1 + u) st)
      (fun _ st => DGrid h w p q st.1 ∧ TGrid w p q st.2) ⟨gB1, gS.put tr' tc'⟩ (by
        rintro u hu ⟨C, S1⟩ ⟨gC, gS1⟩
        simp only at gC gS1
        have hi : k + 1 + u < p := by omega
        obtain ⟨a0, ea, ar, ac⟩ := gC k hk k hkp
        obtain ⟨b0, eb, br, bc⟩ := gC k hk (k + 1 + u) hi
        obtain ⟨t1, e1, t1r, t1c⟩ := gS1 k hk (k + 1 + u) (by omega) hi
        simp only at ea eb
        obtain ⟨P1, a, b, t2, hq, ⟨qa, qb, qc, qd, qe, qf⟩, R1, -⟩ :=
          tpqrt_fl (p := p) hF hnb hε (show k < k + 1 + u by omega) hi (hw k hk) ar ac br bc t1r t1c
        have gC1 : DGrid h w p q (put (put C k k (.dense a)) (k + 1 + u) k (.dense b)) := by
          rw [put_eq2]
          refine gC.putCol (fun i hi' => ?_)
          by_cases e : i = k + 1 + u
          · subst e
            exact ⟨b, by simp [putRow], qc, qd⟩
          · by_cases e' : i = k
            · subst e'
              exact ⟨a, by simp [putRow, e], qa, qb⟩
            · simp only [putRow, if_neg e, if_neg e']
              exact gC k hk i hi'
        obtain ⟨D, hD, gD⟩ := loop_total (n := q - (k + 1))
          (s := put (put C k k (.dense a)) (k + 1 + u) k (.dense b))
          (body := fun v A => do
            let y ← F.tiles.tpmqrt true (.dense b) (.dense t2) (A k (k + 1 + v)) (A (k + 1 + u) (k + 1 + v))
            .ok (put (put A k (k + 1 + v) y.1) (k + 1 + u) (k + 1 + v) y.2)) (fun _ A => DGrid h w p q A) gC1 (by
            intro v hv A gA
            obtain ⟨y, hy, gy⟩ := R1.tpmqrt (by omega) true (gA (k + 1 + v) (by omega))
            refine ⟨_, by rw [hy, except_bind_ok], ?_⟩
            rw [put_eq2]
            exact gA.putCol gy)
        refine ⟨(D, put S1 (k + 1 + u) k (.dense t2)), ?_, gD, gS1.put qe qf⟩
        simp only [TileOps.tiledInner]
        rw [blockAt_in C hkp hk, blockAt_in C hi hk, blockAt_in S1 hi hk]
        simp only [except_bind_ok, ea, eb, e1, hq]
        rw [hD]
        rfl)
    refine ⟨(B2, S2), ?_, g2⟩
    simp only [TileOps.tiledStep]
    rw [blockAt_in B hkp hk, blockAt_in S hkp hk]
    simp only [except_bind_ok, ed, et, hg]
    rw [hB1]
    exact hB2)
  obtain ⟨⟨Y, T'⟩, hrun, g1, g2⟩ := key
  refine ⟨Y, T', ?_, g1, g2⟩
  unfold TileOps.tiledQr
  rw [decide_eq_true (rfl : p = p), decide_eq_true (rfl : q = q)]
  exact hrun

/-- All tiles that hold reflectors. -/
theorem mem_all {s : Nat} {e : Nat × Nat} : e ∈ pairs p s ↔ e.1 < s ∧ e.1 ≤ e.2 ∧ e.2 < p := mem_pairs

/-- The factorization: what the reflectors stand for and what the triangular factor is. -/
theorem tiledQr_fl {nb : Nat} (hF : F.Sound nb ε) (hnb : ∀ i < p, h i ≤ nb) (hε : 0 ≤ ε) (hw : ∀ k < q, w k ≤ h k)
    {A T Y T' : Nat → Nat → Mat ℝ} (hA : DGrid h w p q A) (hT : TGrid w p q T) {tr tc : Nat}
    (hrun : F.tiles.tiledQr p q A tr tc T = .ok (Y, T')) :
    ∃ P : Nat × Nat → Nat → Nat → ℝ, Refls F ε p h w Y T' P (pairs p q) ∧
      ∀ j < q, DCol h p (w j) (fun i => Y i j) ∧
        ActsLike (psum h p) (w j) ((1 + ε) ^ (pairs p (j + 1)).length)
          (prodOrth (psum h p) h w P true (pairs p (j + 1))) (cm h p (fun i => A i j))
          (flat h p (masked j p (fun i => Y i j))) := by
  obtain ⟨-, cols⟩ := TileOps.tiledQr_cols (tiles_low F) hrun
  have key : ∀ s ≤ q, ∃ P : Nat × Nat → Nat → Nat → ℝ, Refls F ε p h w Y T' P (pairs p s) ∧
      ∀ j < s, DCol h p (w j) (fun i => Y i j) ∧
        ActsLike (psum h p) (w j) ((1 + ε) ^ (pairs p (j + 1)).length)
          (prodOrth (psum h p) h w P true (pairs p (j + 1))) (cm h p (fun i => A i j))
          (flat h p (masked j p (fun i => Y i j))) := by
    intro s
    induction s with
    | zero => exact fun _ => ⟨fun _ => oneSq, by simp [Refls, pairs], by intro j hj; omega⟩
    | succ s ih =>
      intro hs
      obtain ⟨P, HR, HC⟩ := ih (by omega)
      obtain ⟨hsp, c, hc, hf⟩ := cols s (by omega)
      obtain ⟨c0, r1, r2, r3⟩ := runT_fl hε HR true (hA s (by omega))
      cases Except.ok.inj (r1.symm.trans hc)
      obtain ⟨c', Tc, P1, f1, f2, f3, f4⟩ := colFactor_fl hF hnb hε hsp (hw s (by omega)) r2 (hT s (by omega))
      have e := Except.ok.inj (f1.symm.trans hf)
      obtain ⟨e1, e2⟩ := Prod.mk.injEq _ _ _ _ ▸ e
      subst e1
      subst e2
      let P' : Nat × Nat → Nat → Nat → ℝ := fun e => if e.1 = s then P1 e else P e
      have pc : ∀ l ≤ s, prodOrth (psum h p) h w P true (pairs p l) = prodOrth (psum h p) h w P' true (pairs p l) := by
        intro l hl
        refine prodOrth_congr (fun e he => ?_)
        have := (mem_pairs.1 he).1
        simp only [P']
        rw [if_neg (by omega)]
      have HS : Refls F ε p h w Y T' P' (stepPairs p s) := by
        rintro ⟨k, i⟩ he
        obtain ⟨m1, m2, m3⟩ := mem_stepPairs.1 he
        simp only at m1 m2 m3
        subst m1
        refine ⟨⟨m2, m3, hw k (by omega)⟩, ?_⟩
        simp only [P', if_true]
        exact f3 i m2 m3
      have HR' : Refls F ε p h w Y T' P' (pairs p s) := by
        intro e he
        have := (mem_pairs.1 he).1
        obtain ⟨q1, q2⟩ := HR e he
        refine ⟨q1, ?_⟩
        simp only [P']
        rw [if_neg (by omega)]
        exact q2
      refine ⟨P', ?_, ?_⟩
      · rw [pairs_succ]
        intro e he
        rcases List.mem_append.1 he with he | he
        · exact HR' e he
        · exact HS e he
      · intro j hj
        by_cases ejs : j = s
        · subst ejs
          refine ⟨f2, ?_⟩
          rw [pc j (le_refl _)] at r3
          have f4' : prodOrth (psum h p) h w P1 true (stepPairs p j) =
              prodOrth (psum h p) h w P' true (stepPairs p j) := prodOrth_congr (fun e he => by
            simp only [P']
            rw [if_pos (mem_stepPairs.1 he).1])
          rw [f4'] at f4
          have := ActsLike.trans (one_le_pow_eps hε _) (HR'.orth true) (HS.orth true) r3 f4
          rw [← pow_add] at this
          rw [pairs_succ]
          have el : (pairs p j ++ stepPairs p j).length = p - j + (pairs p j).length := by
            rw [List.length_append, Nat.add_comm]
            congr 1
            simp [stepPairs]
          rw [el]
          exact this.congrP (fun a ha b _ => (prodOrth_append _ _ ha b).symm)
        · obtain ⟨q1, q2⟩ := HC j (by omega)
          refine ⟨q1, ?_⟩
          rw [← pc (j + 1) (by omega)]
          exact q2
  exact key q (le_refl _)

/-- Reflectors of later block columns keep a block column that is zero there. -/
theorem prod_keeps {P : Nat × Nat → Nat → Nat → ℝ} {ks : List (Nat × Nat)} {trans : Bool} {n j : Nat}
    {f : Nat → Nat → Nat → ℝ} (hk : ∀ e ∈ ks, TileIn p h w e ∧ j < e.1)
    (hz : ∀ b, j < b → b < p → ∀ r < h b, ∀ y < n, f b r y = 0) :
    ∀ g < psum h p, ∀ y < n, mulSq (psum h p) (prodOrth (psum h p) h w P trans ks) (flat h p f) g y = flat h p f g y := by
  induction ks using List.reverseRecOn with
  | nil => exact fun g hg y _ => mulSq_one (D := oneSq) (fun _ _ _ _ => rfl) hg y
  | append_singleton ks e ih =>
    intro g hg y hy
    obtain ⟨He, hje⟩ := hk e (by simp)
    have ih := ih (fun e' he' => hk e' (by simp [he']))
    rw [prodOrth_snoc, mulSq_assoc, mulSq_congr (n := n) ih g hy]
    have hρ := rho_picks (h := h) He.lt He.top
    have zero : ∀ a < topRows w e + h e.2, ∀ y < n, flat h p f (rho h (topRows w e) e.1 e.2 a) y = 0 := by
      intro a ha y hy
      rw [flat_rho He.lt He.top ha]
      unfold stack
      have := He.le
      split
      · refine hz e.1 hje (by have := He.lt; omega) a ?_ y hy
        rcases He.top with h0 | h0
        · omega
        · omega
      · exact hz e.2 (by omega) He.lt _ (by omega) y hy
    unfold tileOrth
    by_cases hin : ∃ a < topRows w e + h e.2, g = rho h (topRows w e) e.1 e.2 a
    · obtain ⟨a, ha, rfl⟩ := hin
      rw [mul_emb_in hρ ha, zero a ha y hy]
      exact Finset.sum_eq_zero (fun l hl => by dsimp only; rw [zero l (Finset.mem_range.1 hl) y hy, mul_zero])
    · exact mul_emb_out hg (fun a ha e => hin ⟨a, ha, e⟩) y

/-! ### products with the reflectors -/

/-- A product with the reflectors returns. -/
theorem leftMulTiled_returns (hqp : q ≤ p) {Y T : Nat → Nat → Mat ℝ} {P : Nat × Nat → Nat → Nat → ℝ}
    (H : Refls F ε p h w Y T P (pairs p q)) {n : Nat} (hqn : q ≤ n) {v : Nat → Nat} {C : Nat → Nat → Mat ℝ}
    (hC : DGrid h v p n C) (trans : Bool) :
    ∃ D, F.tiles.leftMulTiled p q Y p q T p n C trans = .ok D ∧ DGrid h v p n D := by
  have lar : ∀ k < q, ∀ C, DGrid h v p n C → ∃ D, F.tiles.leftMulLarfb p q Y p q T p n trans k C = .ok D ∧
      DGrid h v p n D := by
    intro k hk C gC
    refine loop_total (fun _ A => DGrid h v p n A) gC (fun u hu A gA => ?_)
    have R0 := (H (k, k) (mem_pairs.2 ⟨hk, le_refl _, by simp only; omega⟩)).2
    obtain ⟨y, hy, gy⟩ := R0.larfb trans (gA (k + u) (by omega))
    rw [blockAt_in Y (by omega) hk, blockAt_in T (by omega) hk, blockAt_in A (by omega) (by omega)]
    simp only [except_bind_ok]
    simp only at hy
    rw [hy]
    refine ⟨_, rfl, ?_⟩
    rw [put_eq]
    exact gA.putCol gy
  have tpm : ∀ k < q, ∀ i, k < i → i < p → ∀ C, DGrid h v p n C →
      ∃ D, F.tiles.leftMulTpmqrt p q Y p q T p n trans k i C = .ok D ∧ DGrid h v p n D := by
    intro k hk i hki hi C gC
    refine loop_total (fun _ A => DGrid h v p n A) gC (fun u hu A gA => ?_)
    have R0 := (H (k, i) (mem_pairs.2 ⟨hk, by simp only; omega, hi⟩)).2
    obtain ⟨y, hy, gy⟩ := R0.tpmqrt hki trans (gA (k + u) (by omega))
    rw [blockAt_in Y hi hk, blockAt_in T hi hk, blockAt_in A (by omega) (by omega), blockAt_in A hi (by omega)]
    simp only [except_bind_ok]
    simp only at hy
    rw [hy]
    refine ⟨_, rfl, ?_⟩
    rw [put_eq2]
    exact gA.putCol gy
  cases trans with
  | true =>
    simp only [TileOps.leftMulTiled, if_true]
    refine loop_total (fun _ A => DGrid h v p n A) hC (fun k hk A gA => ?_)
    obtain ⟨B, h1, g1⟩ := lar k hk A gA
    rw [h1, except_bind_ok]
    exact loop_total (fun _ A => DGrid h v p n A) g1 (fun u hu A gA => tpm k hk _ (by omega) (by omega) A gA)
  | false =>
    simp only [TileOps.leftMulTiled, Bool.false_eq_true, if_false]
    refine loop_total (fun _ A => DGrid h v p n A) hC (fun s hs A gA => ?_)
    obtain ⟨B, h1, g1⟩ := loop_total (n := p - (q - 1 - s + 1)) (s := A)
      (body := fun u C => F.tiles.leftMulTpmqrt p q Y p q T p n false (q - 1 - s) (p - 1 - u) C)
      (fun _ A => DGrid h v p n A) gA (fun u hu A gA => tpm _ (by omega) _ (by omega) (by omega) A gA)
    rw [h1, except_bind_ok]
    exact lar _ (by omega) B g1

/-- A product with the reflectors, block column by block column. -/
theorem leftMulTiled_fl (hε : 0 ≤ ε) {Y T : Nat → Nat → Mat ℝ} {P : Nat × Nat → Nat → Nat → ℝ}
    (H : Refls F ε p h w Y T P (pairs p q)) {tr tc m n : Nat} {v : Nat → Nat} {C D : Nat → Nat → Mat ℝ}
    (hC : DGrid h v p n C) {trans : Bool} (hrun : F.tiles.leftMulTiled p q Y tr tc T m n C trans = .ok D)
    {j : Nat} (hj : j < q) (hn : q ≤ n) :
    DCol h p (v j) (fun i => D i j) ∧
    ActsLike (psum h p) (v j) ((1 + ε) ^ (pairs p (j + 1)).length)
      (prodOrth (psum h p) h w P trans (torder trans p j)) (cm h p (fun i => C i j)) (cm h p (fun i => D i j)) := by
  have run := ((TileOps.leftMulTiled_cols hrun).2 j).1 hj
  obtain ⟨c', r1, r2, r3⟩ := runT_fl hε (ks := torder trans p j) (fun e he => H e (by
    obtain ⟨m1, m2, m3⟩ := mem_torder.1 he
    exact mem_pairs.2 ⟨by omega, m2, m3⟩)) trans (hC j (by omega))
  cases Except.ok.inj (r1.symm.trans run)
  refine ⟨r2, ?_⟩
  rw [show (pairs p (j + 1)).length = (torder trans p j).length by cases trans <;> simp [torder]]
  exact r3

end
end Verif
