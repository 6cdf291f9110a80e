import Verif.Model.HeapTri
import Verif.Lemmas.SameTri

/-
`trsm` and `trmm` on stored targets follow the recursion on values.
-/

namespace Verif
open Finset

variable {R : Type}

namespace Tgt
open Mat

section
variable [Zero R]

/-- Whatever a target holds at any time has the structure it had before. -/
theorem Holds.wf {h h' : Heap R} {T : Tgt} {c c' : Mat R} (hT : T.Ok h) (hT' : T.Ok h')
    (hc : T.Holds h c) (hc' : T.Holds h' c') (hw : c.WF) : c'.WF := by
  induction T generalizing c c' with
  | dense d =>
    cases c' <;> try exact hc'.elim
    trivial
  | hier m n blk ih =>
    cases c <;> try exact hc.elim
    cases c' <;> try exact hc'.elim
    rename_i C m' n' C'
    obtain ⟨rfl, rfl, h3⟩ := hc
    obtain ⟨rfl, rfl, h3'⟩ := hc'
    obtain ⟨w1, w2, w3⟩ := hw
    have dim : ∀ i < m', ∀ j < n', (C' i j).nRows = (C i j).nRows ∧ (C' i j).nCols = (C i j).nCols := by
      intro i hi j hj
      have e1 := (h3 i hi j hj).dims (hT.2.2.1 i hi j hj)
      have e2 := (h3' i hi j hj).dims (hT'.2.2.1 i hi j hj)
      exact ⟨e2.1.trans e1.1.symm, e2.2.trans e1.2.symm⟩
    refine ⟨w1, w2, fun i hi j hj => ⟨ih i j (hT.2.2.1 i hi j hj) (hT'.2.2.1 i hi j hj) (h3 i hi j hj)
      (h3' i hi j hj) (w3 i hi j hj).1, ?_, ?_⟩⟩
    · rw [(dim i hi j hj).1, (dim i hi 0 w2).1]; exact (w3 i hi j hj).2.1
    · rw [(dim i hi j hj).2, (dim 0 w1 j hj).2]; exact (w3 i hi j hj).2.2

/-- Values that store the same are held alike. -/
theorem Holds.alike {h : Heap R} {T : Tgt} {c c' : Mat R} (hc : T.Holds h c) (hs : c.Same c') :
    T.Holds h c' := by
  induction T generalizing c c' with
  | dense d =>
    cases c <;> try exact hc.elim
    cases c' <;> try exact hs.elim
    obtain ⟨h1, h2, h3⟩ := hc
    obtain ⟨s1, s2, s3⟩ := hs
    refine ⟨by omega, by omega, fun i hi j hj => ?_⟩
    rw [h3 i hi j hj, s3 i (by omega) j (by omega)]
  | hier m n blk ih =>
    cases c <;> try exact hc.elim
    cases c' <;> try exact hs.elim
    obtain ⟨rfl, rfl, h3⟩ := hc
    obtain ⟨rfl, rfl, s3⟩ := hs
    exact ⟨rfl, rfl, fun i hi j hj => ih i j (h3 i hi j hj) (s3 i hi j hj)⟩

/-- Reading a target gives what it holds. -/
theorem Holds.fetch {h : Heap R} {T : Tgt} {c : Mat R} (hT : T.Ok h) (hc : T.Holds h c) :
    ∃ c', T.fetch h = .ok c' ∧ c.Same c' ∧ T.Holds h c' := by
  induction T generalizing c with
  | dense d =>
    cases c <;> try exact hc.elim
    rename_i c
    obtain ⟨h1, h2, h3⟩ := id hc
    have e : c.Same (d.value h) := ⟨h1, h2, fun i hi j hj => by
      have := h3 i (by omega) j (by omega)
      rw [← this]
      have hi' : i < d.rows := by omega
      have hj' : j < d.cols := by omega
      simp [DObj.value, hi', hj']⟩
    refine ⟨.dense (d.value h), ?_, e, hc.alike (c' := .dense _) e⟩
    simp only [Tgt.fetch, DObj.fetch_value (DObj.readable_of (Or.inl hT)), except_bind_ok]
  | hier m n blk ih =>
    cases c <;> try exact hc.elim
    obtain ⟨rfl, rfl, h3⟩ := hc
    rename_i m n C
    have hB := fun i hi j hj => ih i j (hT.2.2.1 i hi j hj) (h3 i hi j hj)
    obtain ⟨g, hg⟩ := collect2_exists (m := m) (n := n) (f := fun i j => (blk i j).fetch h)
      (fun i hi j hj => by obtain ⟨x, hx, -⟩ := hB i hi j hj; exact ⟨x, hx⟩)
    have hv : ∀ i < m, ∀ j < n, (C i j).Same (g i j) ∧ (blk i j).Holds h (g i j) := by
      intro i hi j hj
      obtain ⟨x, hx, hs⟩ := hB i hi j hj
      have := collect2_ok hg i hi j hj
      rw [hx] at this
      rw [← Except.ok.inj this]; exact hs
    refine ⟨.hier m n g, by simp only [Tgt.fetch, hg, except_bind_ok],
      ⟨rfl, rfl, fun i hi j hj => (hv i hi j hj).1⟩, ⟨rfl, rfl, fun i hi j hj => (hv i hi j hj).2⟩⟩

end

/-! ### substitution along a line of blocks -/

section
variable [Zero R]

/-- Targets that are valid and have no element in common. -/
def LineOk (h : Heap R) (n : Nat) (x : Nat → Tgt) : Prop :=
  (∀ i < n, (x i).Ok h) ∧ ∀ i < n, ∀ k < n, i ≠ k → ∀ b p, (x i).Cell b p → ¬ (x k).Cell b p

theorem sim_substBlocks {n : Nat} {gm : Nat → Nat → Mat R → Mat R → Except Err (Mat R)}
    {sv : Nat → Mat R → Except Err (Mat R)}
    {GM : Nat → Nat → Mat R → Tgt → Heap R → Except Err (Heap R)}
    {SV : Nat → Tgt → Heap R → Except Err (Heap R)} {σ : Nat → Nat} (hσ : ∀ t < n, σ t < n)
    (hinj : ∀ t < n, ∀ u < t, σ u ≠ σ t)
    (hgm : ∀ i k X X' T c h, X.Same X' → X.WF → X'.WF → T.Ok h → T.Holds h c → c.WF →
      Sim T h (gm i k X c) (GM i k X' T h))
    (hsv : ∀ i T c h, T.Ok h → T.Holds h c → c.WF → Sim T h (sv i c) (SV i T h))
    {x : Nat → Tgt} {c : Nat → Mat R} {h : Heap R} (hx : LineOk h n x)
    (hc : ∀ i < n, (x i).Holds h (c i)) (hw : ∀ i < n, (c i).WF) :
    Both (fun c' h' => h.Same (fun b k => ∃ i < n, (x i).Cell b k) h' ∧
        ∀ i < n, (x i).Holds h' (c' i))
      (blockSubst n gm sv σ c) (substBlocks n GM SV σ x h) := by
  unfold blockSubst substBlocks
  refine loop_loop (P := fun _ (c' : Nat → Mat R) h' => h.Same (fun b k => ∃ i < n, (x i).Cell b k) h' ∧
    ∀ i < n, (x i).Holds h' (c' i)) ⟨Heap.Same.refl _ _, hc⟩ ?_
  intro t ht c1 h1 ⟨s1, v1⟩
  have ok1 : ∀ i < n, (x i).Ok h1 := fun i hi => (hx.1 i hi).same s1
  have w1 : ∀ i < n, (c1 i).WF := fun i hi => Holds.wf (hx.1 i hi) (ok1 i hi) (hc i hi) (v1 i hi) (hw i hi)
  have inner : Both (fun b h2 => (x (σ t)).After h1 b h2)
      (loop t (fun u b => gm (σ t) (σ u) (c1 (σ u)) b) (c1 (σ t)))
      (loop t (fun u h => do
        let X ← (x (σ u)).fetch h
        GM (σ t) (σ u) X (x (σ t)) h) h1) := by
    refine loop_loop (P := fun _ b h2 => (x (σ t)).After h1 b h2) ⟨v1 _ (hσ t ht), Heap.Same.refl _ _⟩ ?_
    intro u hu b h2 ⟨q1, q2⟩
    have hun : σ u < n := hσ u (by omega)
    have hu2 : (x (σ u)).Holds h2 (c1 (σ u)) := (v1 _ hun).same (ok1 _ hun) q2
      (fun b k hk => hx.2 _ hun _ (hσ t ht) (hinj t ht u hu) b k hk)
    obtain ⟨X, e1, e2, e3⟩ := hu2.fetch ((ok1 _ hun).same q2)
    rw [e1, except_bind_ok]
    refine (hgm (σ t) (σ u) _ X _ b h2 e2 (w1 _ hun)
      (Holds.wf (ok1 _ hun) ((ok1 _ hun).same q2) (v1 _ hun) e3 (w1 _ hun)) ((ok1 _ (hσ t ht)).same q2) q1
      (Holds.wf (ok1 _ (hσ t ht)) ((ok1 _ (hσ t ht)).same q2) (v1 _ (hσ t ht)) q1 (w1 _ (hσ t ht)))).mono
      (fun b' h3 ⟨r1, r2⟩ => ⟨r1, q2.trans r2⟩)
  refine inner.bind (fun b h2 _ _ ⟨q1, q2⟩ => ?_)
  refine (hsv (σ t) (x (σ t)) b h2 ((ok1 _ (hσ t ht)).same q2) q1
    (Holds.wf (ok1 _ (hσ t ht)) ((ok1 _ (hσ t ht)).same q2) (v1 _ (hσ t ht)) q1 (w1 _ (hσ t ht)))).then_ok
    (fun b' h3 ⟨r1, r2⟩ => ⟨_, rfl, ?_, ?_⟩)
  · exact s1.trans ((q2.trans r2).mono (fun b k hk => ⟨_, hσ t ht, hk⟩))
  · intro i hi
    by_cases hit : i = σ t
    · subst hit; simpa using r1
    · simp only [if_neg hit]
      exact (v1 i hi).same (ok1 i hi) (q2.trans r2) (fun b k hk => hx.2 _ hi _ (hσ t ht) hit b k hk)

/-- Lines of blocks, one after the other. -/
theorem sim_lines {m n : Nat} {gm : Nat → Nat → Mat R → Mat R → Except Err (Mat R)}
    {sv : Nat → Mat R → Except Err (Mat R)}
    {GM : Nat → Nat → Mat R → Tgt → Heap R → Except Err (Heap R)}
    {SV : Nat → Tgt → Heap R → Except Err (Heap R)} {σ : Nat → Nat} (hσ : ∀ t < n, σ t < n)
    (hinj : ∀ t < n, ∀ u < t, σ u ≠ σ t)
    (hgm : ∀ i k X X' T c h, X.Same X' → X.WF → X'.WF → T.Ok h → T.Holds h c → c.WF →
      Sim T h (gm i k X c) (GM i k X' T h))
    (hsv : ∀ i T c h, T.Ok h → T.Holds h c → c.WF → Sim T h (sv i c) (SV i T h))
    {x : Nat → Nat → Tgt} {c : Nat → Nat → Mat R} {h : Heap R} (hx : ∀ i < m, ∀ j < n, (x i j).Ok h)
    (hd : ∀ i < m, ∀ j < n, ∀ i' < m, ∀ j' < n, (i ≠ i' ∨ j ≠ j') →
      ∀ b p, (x i j).Cell b p → ¬ (x i' j').Cell b p)
    (hc : ∀ i < m, ∀ j < n, (x i j).Holds h (c i j)) (hw : ∀ i < m, ∀ j < n, (c i j).WF) :
    Both (fun c' h' => h.Same (fun b k => ∃ i < m, ∃ j < n, (x i j).Cell b k) h' ∧
        ∀ i < m, ∀ j < n, (x i j).Holds h' (c' i j))
      (collect m (fun i => blockSubst n gm sv σ (c i)))
      (loop m (fun i h => substBlocks n GM SV σ (x i) h) h) := by
  refine (collect_loop (P := fun i (g : Nat → Nat → Mat R) h' => h.Same (fun b k => ∃ i < m, ∃ j < n, (x i j).Cell b k) h' ∧
    ∀ i' < m, ∀ j < n, (x i' j).Holds h' (if i' < i then g i' j else c i' j))
    ⟨Heap.Same.refl _ _, fun i hi j hj => by simpa using hc i hi j hj⟩ ?_).mono
    (fun g h' ⟨s, v⟩ => ⟨s, fun i hi j hj => by simpa [hi] using v i hi j hj⟩)
  intro i hi g h1 ⟨s1, v1⟩
  have ok1 : ∀ i < m, ∀ j < n, (x i j).Ok h1 := fun i hi j hj => (hx i hi j hj).same s1
  refine (sim_substBlocks hσ hinj hgm hsv (x := x i) (c := c i) (h := h1)
    ⟨fun j hj => ok1 i hi j hj, fun j hj k hk hne => hd i hi j hj i hi k hk (Or.inr hne)⟩
    (fun j hj => by simpa using v1 i hi j hj) (fun j hj => hw i hi j hj)).mono (fun y h2 ⟨s2, v2⟩ => ?_)
  refine ⟨s1.trans (s2.mono (fun b k ⟨j, hj, hk⟩ => ⟨i, hi, j, hj, hk⟩)), fun i' hi' j hj => ?_⟩
  by_cases hii : i' = i
  · subst hii; simpa using v2 j hj
  · have e : (if i' < i + 1 then (if i' = i then y else g i') j else c i' j) =
        if i' < i then g i' j else c i' j := by
      by_cases h3 : i' < i
      · rw [if_pos (by omega), if_pos h3, if_neg hii]
      · rw [if_neg (by omega), if_neg h3]
    rw [e]
    exact (v1 i' hi' j hj).same (ok1 i' hi' j hj) s2
      (fun b k hk ⟨j', hj', hk'⟩ => hd i' hi' j hj i hi j' hj' (Or.inl hii) b k hk hk')

end

/-! ### trsm -/

/-- A routine on the heap that does what the routine on values does. -/
def UpdSim [Zero R] (t : Mat R → Mat R → Except Err (Mat R))
    (F : Mat R → Tgt → Heap R → Except Err (Heap R)) : Prop :=
  ∀ (A : Mat R) (T : Tgt) (c : Mat R) (h : Heap R), A.WF → T.Ok h → T.Holds h c → c.WF →
    Sim T h (t A c) (F A T h)

section
variable [CommRing R] {g : GemmT R} {G : GemmH R} (hga : GemmAlike g) (hgs : GemmSim g G)
include hga hgs

/-- A product with factors that are stored alike. -/
theorem sim_gemm {A A' B B' : Mat R} (hA : A.Same A') (hB : B.Same B') (wA : A.WF) (wB : B.WF)
    (wA' : A'.WF) (wB' : B'.WF) {T : Tgt} {c : Mat R} {h : Heap R} (hT : T.Ok h) (hc : T.Holds h c)
    (hw : c.WF) (α β : R) (ta tb : Bool) :
    Sim T h (g A B c α β ta tb) (G A' B' T α β ta tb h) := by
  have h1 := hga A A' B B' c c α β ta tb hA hB (Mat.Same.refl _) wA.hasBlocks wB.hasBlocks hw.hasBlocks
  have h2 := hgs A' B' T c α β ta tb h wA' wB' hT hc
  rcases h1 with ⟨x, x', e1, e2, e3⟩ | ⟨e, e1, e2⟩
  · rcases h2 with ⟨y, h', f1, f2, f3⟩ | ⟨e, f1, f2⟩
    · rw [e2] at f1
      obtain rfl := Except.ok.inj f1
      rw [e1, f2]
      exact Both.ok ⟨f3.1.alike e3.1.symm, f3.2⟩
    · rw [e2] at f1; cases f1
  · rcases h2 with ⟨y, h', f1, f2, f3⟩ | ⟨e', f1, f2⟩
    · rw [e2] at f1; cases f1
    · rw [e2] at f1
      obtain rfl := Except.error.inj f1
      rw [e1, f2]
      exact Both.err _ _

omit hga hgs in
/-- Working on the views of a split is working on the matrix. -/
theorem sim_through_wf {d : DObj} {c : Dense R} {h : Heap R} (hd : d.Ok h)
    (hc : (Tgt.dense d).Holds h (.dense c)) {nr nc : Nat} (hr : 1 ≤ nr) (hn : 1 ≤ nc)
    {f : Mat R → Except Err (Mat R)} {F : Tgt → Heap R → Except Err (Heap R)}
    (hf : ∀ T CH, T.Ok h → T.Holds h CH → CH.WF → Sim T h (f CH) (F T h)) :
    Sim (.dense d) h (do
      let CH ← (Mat.dense c).split nr nc
      let CH' ← f CH
      joinDense c CH') (do
      let T ← ofSplit d nr nc
      F T h) := by
  refine (sim_split hd hc hr hn).bind (fun CH T e _ ⟨t1, t2, t3, t4⟩ => ?_)
  refine (hf T CH t1 t2 (wf_split hr hn e)).then_ok (fun CH' h' hA => ?_)
  obtain ⟨c', e1, e2⟩ := t4 h' CH' hA.1
  exact ⟨_, e1, e2, hA.2.mono t3⟩

end

section
variable [Field R] [DecidableEq R] {g : GemmT R} {G : GemmH R} (hga : GemmAlike g) (hgs : GemmSim g G)
  {t : Mat R → Mat R → Except Err (Mat R)} {F : Mat R → Tgt → Heap R → Except Err (Heap R)}
  (hF : UpdSim t F)

omit [Field R] [DecidableEq R] in
theorem solveOrder_inj {back : Bool} {n : Nat} : ∀ t < n, ∀ u < t,
    Dense.solveOrder back n u ≠ Dense.solveOrder back n t := by
  intro t ht u hu
  unfold Dense.solveOrder
  split <;> omega

include hga hgs hF

omit [DecidableEq R] in
theorem sim_trsmHH (uplo : Uplo) (side : Side) {p q r s : Nat} {A C : Nat → Nat → Mat R}
    {T : Nat → Nat → Tgt} {h : Heap R} (hA : (Mat.hier p q A).WF) (hT : (Tgt.hier r s T).Ok h)
    (hC : (Tgt.hier r s T).Holds h (.hier r s C)) (hw : (Mat.hier r s C).WF) :
    Sim (.hier r s T) h (Mat.trsmHH g t uplo side p q A r s C) (trsmHH G F uplo side p q A r s T h) := by
  obtain ⟨o1, o2, o3, o4⟩ := id hT
  have blk : ∀ i k, Both (fun x x' => x = x' ∧ x.WF) (blockAt p q A i k) (blockAt p q A i k) := by
    intro i k
    unfold blockAt
    exact Both.assert (fun g1 => Both.assert (fun g2 => Both.ok ⟨rfl, (hA.2.2 i g1 k g2).1⟩))
  have gmL : ∀ i k X X' T c h, X.Same X' → X.WF → X'.WF → T.Ok h → T.Holds h c → c.WF →
      Sim T h (do
        let a ← blockAt p q A i k
        g a X c (-1) 1 false false) (do
        let a ← blockAt p q A i k
        G a X' T (-1) 1 false false h) := by
    intro i k X X' T c h hX wX wX' hT hc hw
    refine (blk i k).bind (fun a a' _ _ ⟨e, w⟩ => ?_)
    subst e
    exact sim_gemm hga hgs (Mat.Same.refl _) hX w wX w wX' hT hc hw _ _ _ _
  have gmR : ∀ j k X X' T c h, X.Same X' → X.WF → X'.WF → T.Ok h → T.Holds h c → c.WF →
      Sim T h (do
        let a ← blockAt p q A k j
        g X a c (-1) 1 false false) (do
        let a ← blockAt p q A k j
        G X' a T (-1) 1 false false h) := by
    intro j k X X' T c h hX wX wX' hT hc hw
    refine (blk k j).bind (fun a a' _ _ ⟨e, w⟩ => ?_)
    subst e
    exact sim_gemm hga hgs hX (Mat.Same.refl _) wX w wX' w hT hc hw _ _ _ _
  have sv : ∀ i T c h, T.Ok h → T.Holds h c → c.WF →
      Sim T h (do
        let a ← blockAt p q A i i
        t a c) (do
        let a ← blockAt p q A i i
        F a T h) := by
    intro i T c h hT hc hw
    refine (blk i i).bind (fun a a' _ _ ⟨e, w⟩ => ?_)
    subst e
    exact hF a T c h w hT hc hw
  cases uplo <;> cases side <;> simp only [Mat.trsmHH, trsmHH]
  · by_cases hs : s = 1
    · subst hs
      rw [if_pos rfl, if_pos rfl]
      refine (sim_substBlocks (x := fun i => T i 0) (c := fun i => C i 0) (h := h)
        (fun t ht => Dense.solveOrder_lt ht) solveOrder_inj gmL sv
        ⟨fun i hi => o3 i hi 0 o2, fun i hi k hk hne => o4 i hi 0 o2 k hk 0 o2 (Or.inl hne)⟩
        (fun i hi => hC.2.2 i hi 0 o2) (fun i hi => (hw.2.2 i hi 0 o2).1)).then_ok
        (fun X h' ⟨s1, v1⟩ => ⟨_, rfl, ⟨rfl, rfl, fun i hi j hj => ?_⟩,
          s1.mono (fun b k ⟨i, hi, hk⟩ => ⟨i, hi, 0, o2, hk⟩)⟩)
      obtain rfl : j = 0 := by omega
      exact v1 i hi
    · rw [if_neg hs, if_neg hs]
      exact Both.err _ _
  · refine (sim_lines (x := fun i j => T i j) (c := fun i j => C i j) (h := h)
      (fun t ht => Dense.solveOrder_lt ht) solveOrder_inj gmR sv o3 o4
      (fun i hi j hj => hC.2.2 i hi j hj) (fun i hi j hj => (hw.2.2 i hi j hj).1)).then_ok
      (fun X h' ⟨s1, v1⟩ => ⟨_, rfl, ⟨rfl, rfl, fun i hi j hj => v1 i hi j hj⟩, s1⟩)
  · refine (sim_lines (x := fun j i => T i j) (c := fun j i => C i j) (h := h)
      (fun t ht => Dense.solveOrder_lt ht) solveOrder_inj gmL sv (fun j hj i hi => o3 i hi j hj)
      (fun j hj i hi j' hj' i' hi' hne => o4 i hi j hj i' hi' j' hj' hne.symm)
      (fun j hj i hi => hC.2.2 i hi j hj) (fun j hj i hi => (hw.2.2 i hi j hj).1)).then_ok
      (fun X h' ⟨s1, v1⟩ => ⟨_, rfl, ⟨rfl, rfl, fun i hi j hj => v1 j hj i hi⟩,
        s1.mono (fun b k ⟨j, hj, i, hi, hk⟩ => ⟨i, hi, j, hj, hk⟩)⟩)
  · exact Both.err _ _

theorem sim_trsmOmm (uplo : Uplo) (side : Side) :
    UpdSim (Mat.trsmOmm g t uplo side) (trsmOmm G F uplo side) := by
  intro A T c h hA hT hc hw
  cases T with
  | dense d =>
    cases c <;> try exact hc.elim
    rename_i c
    cases A with
    | dense a =>
      refine sim_update hT hc (fun c c' h1 h2 h3 => ?_)
      refine (Dense.Same.trsm (Dense.Same.refl a) (B := c) (B' := c')
        ⟨h1.symm, h2.symm, fun i hi j hj => (h3 i hi j hj).symm⟩ uplo side).mono (fun X X' ⟨s, r1, r2⟩ =>
        ⟨r1, r2, fun i hi j hj => (s.2.2 i (by omega) j (by omega)).symm⟩)
    | hier p q A =>
      refine sim_through_wf hT hc ?_ ?_ (fun T CH t1 t2 t3 => hF (.hier p q A) T CH h hA t1 t2 t3)
      · exact Side.pick_pos hA.1 le_rfl
      · exact Side.pick_pos le_rfl hA.2.1
    | lowRank l => exact Both.err _ _
    | empty => exact Both.err _ _
  | hier r s T =>
    cases c <;> try exact hc.elim
    obtain ⟨rfl, rfl, h3⟩ := hc
    cases A with
    | hier p q A => exact sim_trsmHH hga hgs hF uplo side hA hT ⟨rfl, rfl, h3⟩ hw
    | dense a => exact Both.err _ _
    | lowRank l => exact Both.err _ _
    | empty => exact Both.err _ _

omit hF in
theorem sim_trsmWith (uplo : Uplo) (side : Side) (fuel : Nat) :
    UpdSim (Mat.trsmWith g uplo side fuel) (trsmWith G uplo side fuel) := by
  induction fuel with
  | zero => exact fun _ _ _ _ _ _ _ _ => Both.err _ _
  | succ fuel ih => exact sim_trsmOmm hga hgs ih uplo side

end

/-! ### trmm -/

section
variable [CommRing R] {g : GemmT R} {G : GemmH R} (hga : GemmAlike g) (hgs : GemmSim g G)
  {t : Mat R → Mat R → Except Err (Mat R)} {F : Mat R → Tgt → Heap R → Except Err (Heap R)}
  (hF : UpdSim t F)
include hga hgs hF

theorem sim_trmmHH (side : Side) (uplo : Uplo) (tr : Bool) (α : R) {p q r s : Nat}
    {A C : Nat → Nat → Mat R} {T : Nat → Nat → Tgt} {h : Heap R} (hA : (Mat.hier p q A).WF)
    (hT : (Tgt.hier r s T).Ok h) (hC : (Tgt.hier r s T).Holds h (.hier r s C))
    (hw : (Mat.hier r s C).WF) :
    Sim (.hier r s T) h (Mat.trmmHH g t side uplo tr α p q A r s C)
      (trmmHH G F side uplo tr α p q A r s T h) := by
  obtain ⟨o1, o2, o3, o4⟩ := id hT
  unfold Mat.trmmHH trmmHH
  refine Both.assert (fun a1 => Both.assert (fun a2 => Both.bind_same _ (fun _ _ => ?_)))
  obtain ⟨_, e1, e2, e3⟩ := hC.fetch hT
  simp only [Tgt.fetch, except_bind_eq_ok] at e1
  obtain ⟨K, hK, e1⟩ := e1
  obtain rfl := Except.ok.inj e1
  rw [hK, except_bind_ok]
  have wK := Holds.wf hT hT hC e3 hw
  refine (sim_each (φ := id) hT hC (fun i hi j hj h1 k1 k2 => ?_)).then_ok
    (fun X h' ⟨s1, v1⟩ => ⟨_, rfl, ⟨rfl, rfl, v1⟩, s1⟩)
  have okb := k1.2.2.1 i hi j hj
  have wb := (hw.2.2 i hi j hj).1
  have hpi : side.pick i j < p := by
    subst a2; cases side
    · exact hi
    · exact hj
  refine (hF _ _ _ _ (hA.2.2 _ hpi _ (a1 ▸ hpi)).1 okb k2 wb).bind (fun c h2 _ _ ⟨q1, q2⟩ => ?_)
  refine loop_loop (P := fun _ c h2 => (T i j).After h1 c h2) ⟨q1, q2⟩ ?_
  intro u hu c h3 ⟨r1, r2⟩
  have hk := trmm_range hi hj hu
  have wc := Holds.wf okb (okb.same r2) k2 r1 wb
  cases side with
  | left =>
    have hk : trmmIndex uplo .left i j u < r := hk
    change p = r at a2
    exact (sim_gemm hga hgs (Mat.Same.refl _) (e2.2.2 _ hk j hj) (hA.2.2 i (by omega) _ (by omega)).1
      (hw.2.2 _ hk j hj).1 (hA.2.2 i (by omega) _ (by omega)).1 (wK.2.2 _ hk j hj).1 (okb.same r2) r1 wc
      _ _ _ _).mono (fun c' h4 ⟨t1, t2⟩ => ⟨t1, r2.trans t2⟩)
  | right =>
    have hk : trmmIndex uplo .right i j u < s := hk
    change p = s at a2
    exact (sim_gemm hga hgs (e2.2.2 i hi _ hk) (Mat.Same.refl _) (hw.2.2 i hi _ hk).1
      (hA.2.2 _ (by omega) j (by omega)).1 (wK.2.2 i hi _ hk).1 (hA.2.2 _ (by omega) j (by omega)).1
      (okb.same r2) r1 wc _ _ _ _).mono (fun c' h4 ⟨t1, t2⟩ => ⟨t1, r2.trans t2⟩)

theorem sim_trmmOmm (side : Side) (uplo : Uplo) (tr unit : Bool) (α : R) :
    UpdSim (Mat.trmmOmm g t side uplo tr unit α) (trmmOmm G F side uplo tr unit α) := by
  intro A T c h hA hT hc hw
  cases T with
  | dense d =>
    cases c <;> try exact hc.elim
    rename_i c
    cases A with
    | dense a =>
      refine sim_update hT hc (fun c c' h1 h2 h3 => ?_)
      refine (Dense.Same.trmm (Dense.Same.refl a) (B := c) (B' := c')
        ⟨h1.symm, h2.symm, fun i hi j hj => (h3 i hi j hj).symm⟩ side uplo tr unit α).mono
        (fun X X' ⟨s, r1, r2⟩ => ⟨r1, r2, fun i hi j hj => (s.2.2 i (by omega) j (by omega)).symm⟩)
    | hier p q A =>
      obtain ⟨c1, c2, -⟩ := id hc
      refine Both.assert (fun a1 => Both.assert' (by rw [c1, c2]) (fun a2 => ?_))
      refine sim_through_wf hT hc ?_ ?_ (fun T CH t1 t2 t3 => hF (.hier p q A) T CH h hA t1 t2 t3)
      · exact Side.pick_pos hA.2.1 le_rfl
      · exact Side.pick_pos le_rfl hA.1
    | lowRank l => exact Both.err _ _
    | empty => exact Both.err _ _
  | hier r s T =>
    cases c <;> try exact hc.elim
    obtain ⟨d1, d2⟩ := hc.dims hT
    obtain ⟨rfl, rfl, h3⟩ := hc
    cases A with
    | hier p q A => exact sim_trmmHH hga hgs hF side uplo tr α hA hT ⟨rfl, rfl, h3⟩ hw
    | dense a =>
      refine Both.assert (fun a1 => Both.assert' (by rw [d1, d2]) (fun a2 => ?_))
      refine Both.bind_same _ (fun AH e => ?_)
      exact hF AH _ _ h (wf_split (Side.pick_pos hT.1 hT.2.1) (Side.pick_pos hT.1 hT.2.1) e) hT
        ⟨rfl, rfl, h3⟩ hw
    | lowRank l => exact Both.err _ _
    | empty => exact Both.err _ _

omit hF in
theorem sim_trmmWith (side : Side) (uplo : Uplo) (tr unit : Bool) (α : R) (fuel : Nat) :
    UpdSim (Mat.trmmWith g side uplo tr unit α fuel) (trmmWith G side uplo tr unit α fuel) := by
  induction fuel with
  | zero => exact fun _ _ _ _ _ _ _ _ => Both.err _ _
  | succ fuel ih => exact sim_trmmOmm hga hgs ih side uplo tr unit α

end

end Tgt

end Verif
