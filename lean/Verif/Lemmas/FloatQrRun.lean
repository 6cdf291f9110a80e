import Verif.Lemmas.FloatQr

/-!
Rounding errors of tiled Householder QR: sequences of kernel calls and the factorization.
-/

set_option linter.unusedSectionVars false
set_option linter.unusedVariables false

namespace Verif
open Finset
open Mat (locate locate_at locate_spec exists_block LowEq putRow stepPairs mem_stepPairs pairs mem_pairs pairs_succ torder mem_torder)
open TileOps (tstep runT colFactor)

/-! ### products of tile reflectors -/

/-- The product of the reflectors of the tiles `ks`, the first one applied first. -/
noncomputable def prodOrth (M : Nat) (h w : Nat → Nat) (P : Nat × Nat → Nat → Nat → ℝ) (trans : Bool)
    (ks : List (Nat × Nat)) : Nat → Nat → ℝ :=
  ks.foldl (fun Q e => mulSq M (tileOrth h w trans e (P e)) Q) oneSq

section
variable {M : Nat} {h w : Nat → Nat} {P : Nat × Nat → Nat → Nat → ℝ} {trans : Bool}

theorem prodOrth_snoc (ks : List (Nat × Nat)) (e : Nat × Nat) :
    prodOrth M h w P trans (ks ++ [e]) = mulSq M (tileOrth h w trans e (P e)) (prodOrth M h w P trans ks) := by
  simp [prodOrth, List.foldl_append]

theorem prodOrth_congr {P' : Nat × Nat → Nat → Nat → ℝ} {ks : List (Nat × Nat)} (he : ∀ e ∈ ks, P e = P' e) :
    prodOrth M h w P trans ks = prodOrth M h w P' trans ks := by
  induction ks using List.reverseRecOn with
  | nil => rfl
  | append_singleton ks e ih =>
    rw [prodOrth_snoc, prodOrth_snoc, ih (fun e' he' => he e' (by simp [he'])), he e (by simp)]

theorem prodOrth_append (ks ks' : List (Nat × Nat)) {i : Nat} (hi : i < M) (j : Nat) :
    prodOrth M h w P trans (ks ++ ks') i j =
      mulSq M (prodOrth M h w P trans ks') (prodOrth M h w P trans ks) i j := by
  induction ks' using List.reverseRecOn generalizing i j with
  | nil =>
    rw [List.append_nil]
    exact (mulSq_one (D := oneSq) (fun _ _ _ _ => rfl) hi j).symm
  | append_singleton ks' e ih =>
    rw [← List.append_assoc, prodOrth_snoc, prodOrth_snoc, mulSq_assoc]
    exact mulSq_congr (n := j + 1) (fun l hl j' _ => ih hl j') i (by omega)

theorem prodOrth_one (e : Nat × Nat) (i : Nat) {j : Nat} (hj : j < M) :
    prodOrth M h w P trans [e] i j = tileOrth h w trans e (P e) i j := by
  rw [show [e] = [] ++ [e] from rfl, prodOrth_snoc]
  show ∑ l ∈ range M, tileOrth h w trans e (P e) i l * oneSq l j = _
  rw [Finset.sum_eq_single j]
  · simp [oneSq]
  · intro l _ hl
    simp [oneSq, hl]
  · intro hn; exact absurd (Finset.mem_range.2 hj) hn

/-- The reversed product of the untransposed reflectors is the transpose. -/
theorem prodOrth_reverse (ks : List (Nat × Nat)) {i j : Nat} (hi : i < M) (hj : j < M) :
    prodOrth M h w P false ks.reverse i j = prodOrth M h w P true ks j i := by
  induction ks using List.reverseRecOn generalizing i j with
  | nil => simp [prodOrth, oneSq, eq_comm]
  | append_singleton ks e ih =>
    rw [List.reverse_append, prodOrth_append _ _ hi, prodOrth_snoc]
    unfold mulSq
    refine Finset.sum_congr rfl (fun l hl => ?_)
    have hl := Finset.mem_range.1 hl
    rw [ih hi hl, List.reverse_singleton, prodOrth_one e l hj, mul_comm]
    congr 1
    have : tileOrth h w true e (P e) = fun a b => tileOrth h w false e (P e) b a := by
      unfold tileOrth
      rw [embOrth_flip]
      rfl
    rw [this]

theorem prodOrth_orth {p : Nat} {ks : List (Nat × Nat)}
    (hk : ∀ e ∈ ks, TileIn p h w e ∧ Orthogonal (topRows w e + h e.2) (P e)) :
    Orthogonal (psum h p) (prodOrth (psum h p) h w P trans ks) := by
  induction ks using List.reverseRecOn with
  | nil => exact orth_one _
  | append_singleton ks e ih =>
    rw [prodOrth_snoc]
    exact orth_mul (tileOrth_orth (hk e (by simp)).1 (hk e (by simp)).2) (ih (fun e' he' => hk e' (by simp [he'])))

end

theorem ActsLike.congrP {M n : Nat} {a : ℝ} {P P' X X' : Nat → Nat → ℝ} (H : ActsLike M n a P X X')
    (e : ∀ i < M, ∀ j < M, P i j = P' i j) : ActsLike M n a P' X X' := by
  unfold ActsLike at H ⊢
  refine le_trans (le_of_eq (frob_congr (fun i hi j _ => ?_))) H
  congr 1
  exact Finset.sum_congr rfl (fun l hl => by rw [e i hi l (Finset.mem_range.1 hl)])

theorem one_le_pow_eps {ε : ℝ} (hε : 0 ≤ ε) (n : Nat) : 1 ≤ (1 + ε) ^ n := one_le_pow₀ (by linarith)

section
variable {F : FlQr} {ε : ℝ} {p : Nat} {h w : Nat → Nat}

/-- The tiles `ks` hold reflectors. -/
def Refls (F : FlQr) (ε : ℝ) (p : Nat) (h w : Nat → Nat) (Y T : Nat → Nat → Mat ℝ)
    (P : Nat × Nat → Nat → Nat → ℝ) (ks : List (Nat × Nat)) : Prop :=
  ∀ e ∈ ks, TileIn p h w e ∧ ReflOk F ε p h w (Y e.2 e.1) (T e.2 e.1) e (P e)

theorem Refls.orth {Y T : Nat → Nat → Mat ℝ} {P : Nat × Nat → Nat → Nat → ℝ} {ks : List (Nat × Nat)}
    (H : Refls F ε p h w Y T P ks) (trans : Bool) : Orthogonal (psum h p) (prodOrth (psum h p) h w P trans ks) :=
  prodOrth_orth (fun e he => ⟨(H e he).1, (H e he).2.1⟩)

/-- Kernel calls one after the other. -/
theorem runT_fl (hε : 0 ≤ ε) {Y T : Nat → Nat → Mat ℝ} {P : Nat × Nat → Nat → Nat → ℝ} {ks : List (Nat × Nat)}
    (H : Refls F ε p h w Y T P ks) (trans : Bool) {n : Nat} {c : Nat → Mat ℝ} (hc : DCol h p n c) :
    ∃ c', runT F.tiles Y T trans ks c = .ok c' ∧ DCol h p n c' ∧
      ActsLike (psum h p) n ((1 + ε) ^ ks.length) (prodOrth (psum h p) h w P trans ks) (cm h p c) (cm h p c') := by
  induction ks using List.reverseRecOn with
  | nil => exact ⟨c, rfl, hc, by simpa [prodOrth] using ActsLike.refl _ _ _⟩
  | append_singleton ks e ih =>
    have H1 : Refls F ε p h w Y T P ks := fun e' he' => H e' (by simp [he'])
    obtain ⟨c1, h1, h2, h3⟩ := ih H1
    obtain ⟨He, Hr⟩ := H e (by simp)
    obtain ⟨c2, h4, h5, h6⟩ := Hr.2 trans n c1 h2
    refine ⟨c2, ?_, h5, ?_⟩
    · rw [TileOps.runT_append, h1, except_bind_ok, TileOps.runT_one, ← tstep_const]
      exact h4
    · rw [prodOrth_snoc, List.length_append, List.length_singleton, pow_succ']
      exact ActsLike.trans (by linarith) (H1.orth trans) (tileOrth_orth He Hr.1) h3 h6

/-- Column `k` without the stored reflectors, once the blocks up to `m - 1` are done. -/
def masked (k m : Nat) (c : Nat → Mat ℝ) (b r y : Nat) : ℝ :=
  if (k < b ∧ b < m) ∨ (b = k ∧ y < r) then 0 else (c b).entry r y

/-- One `tpqrt` of the factorization of block column `k`. -/
theorem mask_step (hε : 0 ≤ ε) {k i : Nat} (hki : k < i) (hi : i < p) (hw : w k ≤ h k) {c1 : Nat → Mat ℝ}
    {a0 b0 a b : Dense ℝ} {P1 : Nat → Nat → ℝ} (ea : c1 k = .dense a0) (eb : c1 i = .dense b0)
    (f1 : frob (w k + h i) (w k) (fun r y => (if r ≤ y then a.val r y else 0) - mulSq (w k + h i) (opOrth true P1)
        (stack (w k) (fun r y => if r ≤ y then a0.val r y else 0) b0.val) r y) ≤
        ε * frob (w k + h i) (w k) (stack (w k) (fun r y => if r ≤ y then a0.val r y else 0) b0.val)) :
    ActsLike (psum h p) (w k) (1 + ε) (tileOrth h w true (k, i) P1) (flat h p (masked k i c1))
      (flat h p (masked k (i + 1) (putRow (putRow c1 k (.dense a)) i (.dense b)))) := by
  have H1 : TileIn p h w (k, i) := ⟨by simp only; omega, hi, hw⟩
  have top1 : topRows w (k, i) = w k := by simp only [topRows]; rw [if_neg (by omega)]
  unfold tileOrth
  refine ActsLike.emb (rho_picks H1.lt H1.top) hε ?_ ?_
  · intro g hg hout j hj
    obtain ⟨b', hb, r, hrr, rfl⟩ := exists_block h p g hg
    obtain ⟨n1, n2⟩ := rho_out hrr hout
    rw [flat_at hb hrr, flat_at hb hrr]
    simp only [top1] at n1 n2
    unfold masked
    by_cases e : b' = k
    · have := n2 e
      rw [if_pos (Or.inr ⟨e, by omega⟩), if_pos (Or.inr ⟨e, by omega⟩)]
    · simp only [putRow, if_neg n1, if_neg e]
      by_cases h1 : k < b' ∧ b' < i
      · rw [if_pos (Or.inl ⟨h1.1, by omega⟩), if_pos (Or.inl h1)]
      · rw [if_neg (by omega), if_neg (by omega)]
  · have q : ∀ f : Nat → Nat → Nat → ℝ, ∀ a < w k + h i, ∀ j,
        flat h p f (rho h (topRows w (k, i)) k i a) j = stack (w k) (f k) (f i) a j := by
      intro f a ha j
      rw [flat_rho H1.lt H1.top (by rw [top1]; exact ha), top1]
    rw [show topRows w (k, i) + h (k, i).2 = w k + h i by rw [top1]]
    have q2 : ∀ a < w k + h i, ∀ j < w k, flat h p (masked k i c1) (rho h (topRows w (k, i)) k i a) j =
        stack (w k) (fun r y => if r ≤ y then a0.val r y else 0) b0.val a j := by
      intro a' ha' j hj
      rw [q _ a' ha']
      unfold stack masked
      by_cases hlt : a' < w k
      · rw [if_pos hlt, if_pos hlt, ea]
        dsimp only
        by_cases e : a' ≤ j
        · rw [if_pos e, if_neg (by omega)]; rfl
        · rw [if_neg e, if_pos (Or.inr ⟨rfl, by omega⟩)]
      · rw [if_neg hlt, if_neg hlt, if_neg (by omega), eb]; rfl
    rw [frob_congr (Y := fun r y => (if r ≤ y then a.val r y else 0) - mulSq (w k + h i) (opOrth true P1)
        (stack (w k) (fun r y => if r ≤ y then a0.val r y else 0) b0.val) r y) (by
        intro a' ha' j hj
        dsimp only
        rw [mulSq_congr (n := w k) q2 a' hj]
        congr 1
        rw [q _ a' ha']
        unfold stack masked
        by_cases hlt : a' < w k
        · rw [if_pos hlt]
          by_cases e : a' ≤ j
          · rw [if_pos e, if_neg (by omega)]
            simp [putRow, show k ≠ i by omega, Mat.entry]
          · rw [if_neg e, if_pos (Or.inr ⟨rfl, by omega⟩)]
        · rw [if_neg hlt, if_pos (by omega), if_neg (by omega)]),
      frob_congr (X := fun a j => flat h p (masked k i c1) (rho h (topRows w (k, i)) k i a) j) q2]
    exact f1

/-- The factorization of block column `k`. -/
theorem colFactor_fl {nb : Nat} (hF : F.Sound nb ε) (hnb : ∀ i < p, h i ≤ nb) (hε : 0 ≤ ε) {k : Nat} (hk : k < p) (hw : w k ≤ h k) {c T : Nat → Mat ℝ}
    (hc : DCol h p (w k) c)
    (hT : ∀ i, k ≤ i → i < p → ∃ t : Dense ℝ, T i = .dense t ∧ t.rows = w k ∧ t.cols = w k) :
    ∃ (c' T' : Nat → Mat ℝ) (P : Nat × Nat → Nat → Nat → ℝ), colFactor F.tiles p k c T = .ok (c', T') ∧
      DCol h p (w k) c' ∧
      (∀ i, k ≤ i → i < p → ReflOk F ε p h w (c' i) (T' i) (k, i) (P (k, i))) ∧
      ActsLike (psum h p) (w k) ((1 + ε) ^ (p - k)) (prodOrth (psum h p) h w P true (stepPairs p k)) (cm h p c)
        (flat h p (masked k p c')) := by
  obtain ⟨d, ed, dr, dc⟩ := hc k hk
  obtain ⟨t0, et, tr, tc⟩ := hT k (le_refl _) hk
  obtain ⟨P0, v, t, hg, vr, vc, tr', tc', R0, f0⟩ := geqrt_fl (p := p) hF hnb hε hk hw dr dc tr tc
  have H0 : TileIn p h w (k, k) := ⟨le_refl _, hk, hw⟩
  have top0 : topRows w (k, k) = 0 := by simp [topRows]
  have step0 : ActsLike (psum h p) (w k) (1 + ε) (tileOrth h w true (k, k) P0) (cm h p c)
      (flat h p (masked k (k + 1) (putRow c k (.dense v)))) := by
    unfold tileOrth
    refine ActsLike.emb (rho_picks H0.lt H0.top) hε ?_ ?_
    · intro g hg hout j hj
      obtain ⟨b, hb, r, hrr, rfl⟩ := exists_block h p g hg
      have := (rho_out hrr hout).1
      unfold cm
      rw [flat_at hb hrr, flat_at hb hrr]
      simp only at this
      unfold masked
      rw [if_neg (by omega)]
      simp only [putRow, if_neg this]
    · have q : ∀ f : Nat → Nat → Nat → ℝ, ∀ a < h k, ∀ j, flat h p f (rho h (topRows w (k, k)) k k a) j = f k a j := by
        intro f a ha j
        rw [flat_rho H0.lt H0.top (by rw [top0]; simp only; omega), top0]
        simp [stack]
      have m : topRows w (k, k) + h (k, k).2 = h k := by rw [top0, Nat.zero_add]
      rw [m]
      unfold cm
      rw [frob_congr (Y := fun i j => (if i ≤ j then v.val i j else 0) - mulSq (h k) (opOrth true P0) d.val i j) (by
          intro a ha j hj
          dsimp only
          rw [q _ a ha, mulSq_congr (n := w k) (Y := d.val) (fun b hb j _ => by rw [q _ b hb, ed]; rfl) a hj]
          congr 1
          unfold masked
          by_cases e : a ≤ j
          · rw [if_pos e, if_neg (by omega)]
            simp [putRow, Mat.entry]
          · rw [if_neg e, if_pos (Or.inr ⟨rfl, by omega⟩)]),
        frob_congr (X := fun a j => flat h p (fun b r y => (c b).entry r y) (rho h (topRows w (k, k)) k k a) j)
          (Y := d.val) (fun a ha j _ => by rw [q _ a ha, ed]; rfl)]
      exact f0
  have hl := loop_total (n := p - (k + 1)) (s := (putRow c k (.dense v), putRow T k (.dense t)))
    (body := fun u (st : (Nat → Mat ℝ) × (Nat → Mat ℝ)) => do
      let y ← F.tiles.tpqrt (st.1 k) (st.1 (k + 1 + u)) (st.2 (k + 1 + u))
      .ok (putRow (putRow st.1 k y.1) (k + 1 + u) y.2.1, putRow st.2 (k + 1 + u) y.2.2))
    (fun u st => DCol h p (w k) st.1 ∧
      (∀ i, k ≤ i → i < p → ∃ t : Dense ℝ, st.2 i = .dense t ∧ t.rows = w k ∧ t.cols = w k) ∧
      ∃ P : Nat × Nat → Nat → Nat → ℝ,
        (∀ i, k ≤ i → i < k + 1 + u → ReflOk F ε p h w (st.1 i) (st.2 i) (k, i) (P (k, i))) ∧
        ActsLike (psum h p) (w k) ((1 + ε) ^ (u + 1)) (prodOrth (psum h p) h w P true (stepPairs (k + 1 + u) k))
          (cm h p c) (flat h p (masked k (k + 1 + u) st.1)))
    (by
      refine ⟨?_, ?_, fun _ => P0, ?_, ?_⟩
      · intro i hi
        by_cases e : i = k
        · subst e
          exact ⟨v, by simp [putRow], vr, vc⟩
        · simp only [putRow, if_neg e]
          exact hc i hi
      · intro i h1 h2
        by_cases e : i = k
        · subst e
          exact ⟨t, by simp [putRow], tr', tc'⟩
        · simp only [putRow, if_neg e]
          exact hT i h1 h2
      · intro i h1 h2
        have e : i = k := by omega
        subst e
        simpa [putRow] using R0
      · rw [show stepPairs (k + 1 + 0) k = [(k, k)] by simp [stepPairs], Nat.zero_add, pow_one]
        exact step0.congrP (fun i _ j hj => (prodOrth_one (P := fun _ => P0) (k, k) i hj).symm))
    (by
      rintro u hu ⟨c1, T1⟩ ⟨g1, g2, P, g3, g4⟩
      have hi : k + 1 + u < p := by omega
      simp only at g1 g2 g3 g4
      generalize hI : k + 1 + u = i at *
      have hki : k < i := by omega
      obtain ⟨a0, ea, ar, ac⟩ := g1 k hk
      obtain ⟨b0, eb, br, bc⟩ := g1 i hi
      obtain ⟨t1, e1, t1r, t1c⟩ := g2 i (by omega) hi
      obtain ⟨P1, a, b, t2, hq, ⟨qa, qb, qc, qd, qe, qf⟩, R1, f1⟩ :=
        tpqrt_fl (p := p) hF hnb hε hki hi hw ar ac br bc t1r t1c
      have low := (tiles_low F).tpqrt _ _ _ _ hq
      refine ⟨(putRow (putRow c1 k (.dense a)) i (.dense b), putRow T1 i (.dense t2)), ?_, ?_, ?_,
        fun e => if e = (k, i) then P1 else P e, ?_, ?_⟩
      · simp only [ea, eb, e1, hq, except_bind_ok]
      · intro b' hb'
        by_cases e : b' = i
        · subst e
          exact ⟨b, by simp [putRow], qc, qd⟩
        · by_cases e' : b' = k
          · subst e'
            exact ⟨a, by simp [putRow, e], qa, qb⟩
          · simp only [putRow, if_neg e, if_neg e']
            exact g1 b' hb'
      · intro b' h1 h2
        by_cases e : b' = i
        · subst e
          exact ⟨t2, by simp [putRow], qe, qf⟩
        · simp only [putRow, if_neg e]
          exact g2 b' h1 h2
      · intro b' h1 h2
        by_cases e : b' = i
        · subst e
          simpa [putRow] using R1
        · have hP : (k, b') ≠ (k, i) := by simpa using e
          simp only [putRow, if_neg e, if_neg hP]
          by_cases e' : b' = k
          · subst e'
            rw [if_pos rfl]
            have := g3 b' (le_refl _) (by omega)
            rw [ea] at this
            exact this.low low
          · rw [if_neg e']
            exact g3 b' h1 (by omega)
      · have es : stepPairs (k + 1 + (u + 1)) k = stepPairs i k ++ [(k, i)] := by
          unfold stepPairs
          rw [show k + 1 + (u + 1) - k = (i - k) + 1 by omega, List.range_succ, List.map_append]
          simp only [List.map_cons, List.map_nil]
          rw [show k + (i - k) = i by omega]
        rw [es, prodOrth_snoc, if_pos rfl, show k + 1 + (u + 1) = i + 1 by omega, pow_succ']
        rw [prodOrth_congr (P' := P) (fun e he => by
          obtain ⟨m1, m2, m3⟩ := mem_stepPairs.1 he
          rw [if_neg]
          rintro rfl
          simp at m3)]
        have H1 : TileIn p h w (k, i) := ⟨by simp only; omega, hi, hw⟩
        refine ActsLike.trans (by linarith) ?_ (tileOrth_orth H1 R1.1) g4 ?_
        · refine prodOrth_orth (fun e he => ?_)
          obtain ⟨e1, e2⟩ := e
          obtain ⟨m1, m2, m3⟩ := mem_stepPairs.1 he
          simp only at m1 m2 m3
          subst m1
          exact ⟨⟨m2, by simp only; omega, hw⟩, (g3 e2 m2 m3).1⟩
        · exact mask_step hε hki hi hw ea eb f1)
  obtain ⟨⟨c', T'⟩, hrun, g1, -, P, g3, g4⟩ := hl
  rw [show k + 1 + (p - (k + 1)) = p by omega] at g3 g4
  refine ⟨c', T', P, ?_, g1, g3, ?_⟩
  · simp only [colFactor, ed, et, hg, except_bind_ok]
    exact hrun
  · rw [show p - k = p - (k + 1) + 1 by omega]
    exact g4

end
end Verif
