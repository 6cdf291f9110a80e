import Verif.Spec.Random
import Verif.Props.Construct

/-
C67: matrices filled with random numbers are the same in every run.
-/

namespace Verif
variable {R : Type}

private theorem randomRow (g : Rng R) (i stride n : Nat) (mem : Nat → R) (c : Nat) :
    ∃ mem', loop n (fun j (s : (Nat → R) × g.State) =>
        let d := g.draw s.2
        .ok (fun x => if x = i * stride + j then d.1 else s.1 x, d.2)) (mem, g.stateAfter c) =
        .ok (mem', g.stateAfter (c + n)) ∧
      (∀ j < n, mem' (i * stride + j) = g.number (c + j)) ∧
      ∀ x, (∀ j < n, x ≠ i * stride + j) → mem' x = mem x := by
  induction n with
  | zero => exact ⟨mem, rfl, fun j hj => by omega, fun _ _ => rfl⟩
  | succ n ih =>
    obtain ⟨mem', h, h1, h2⟩ := ih
    refine ⟨fun x => if x = i * stride + n then g.number (c + n) else mem' x, ?_, fun j hj => ?_, fun x hx => ?_⟩
    · rw [loop_succ, h, except_bind_ok]; rfl
    · by_cases e : j = n
      · subst e; simp
      · simp only
        rw [if_neg (by omega)]
        exact h1 j (by omega)
    · simp only
      rw [if_neg (hx n (by omega))]
      exact h2 x (fun j hj => hx j (by omega))

private theorem randomRows (g : Rng R) {stride n : Nat} (hs : n ≤ stride) (m : Nat) (mem : Nat → R) :
    ∃ mem', loop m (fun i (s : (Nat → R) × g.State) => loop n (fun j s =>
        let d := g.draw s.2
        .ok (fun x => if x = i * stride + j then d.1 else s.1 x, d.2)) s) (mem, g.stateAfter 0) =
        .ok (mem', g.stateAfter (m * n)) ∧
      (∀ i < m, ∀ j < n, mem' (i * stride + j) = g.number (i * n + j)) ∧
      ∀ x, (∀ i < m, ∀ j < n, x ≠ i * stride + j) → mem' x = mem x := by
  induction m with
  | zero => exact ⟨mem, by simp, fun i hi => by omega, fun _ _ => rfl⟩
  | succ m ih =>
    obtain ⟨a, h, h1, h2⟩ := ih
    obtain ⟨b, k, k1, k2⟩ := randomRow g m stride n a (m * n)
    refine ⟨b, ?_, fun i hi j hj => ?_, fun x hx => ?_⟩
    · rw [loop_succ, h, except_bind_ok, k, Nat.succ_mul]
    · by_cases e : i = m
      · subst e; exact k1 j hj
      · rw [k2 _ (fun j' hj' he => ?_)]
        · exact h1 i (by omega) j hj
        · have : i * stride + stride ≤ m * stride := by
            rw [← Nat.succ_mul]; exact Nat.mul_le_mul_right _ (by omega)
          omega
    · rw [k2 x (fun j hj => hx m (by omega) j hj)]
      exact h2 x (fun i hi => hx i (by omega))

/-- **C67**, one call.  Whatever the random device returns and whatever the offset of the
block, a random kernel returns, the numbers it writes row by row are the sequence that
starts from seed zero, and it writes nothing else. -/
theorem C67_fill (g : Rng R) (rd : Nat → Nat → Nat → Int → Int → Nat) {m n stride : Nat} (hs : n ≤ stride)
    (mem : Nat → R) (rs cs : Int) :
    ∃ mem', randomKernel g rd mem m n stride rs cs = .ok mem' ∧
      (∀ i < m, ∀ j < n, mem' (i * stride + j) = g.number (i * n + j)) ∧
      ∀ x, (∀ i < m, ∀ j < n, x ≠ i * stride + j) → mem' x = mem x := by
  obtain ⟨mem', h, h1, h2⟩ := randomRows g hs m mem
  refine ⟨mem', ?_, h1, h2⟩
  rw [randomKernel, except_bind_eq_ok]
  exact ⟨_, h, rfl⟩

/-- **C67**, `Dense(random_…, {}, m, n, …)`. -/
theorem C67_dense [Zero R] (g : Rng R) (rd : Nat → Nat → Nat → Int → Int → Nat) (m n : Nat) (rs cs : Int) :
    ∃ d, Dense.ofKernel (randomKernel g rd) m n rs cs = .ok d ∧ d.rows = m ∧ d.cols = n ∧
      ∀ i < m, ∀ j < n, d.val i j = g.number (i * n + j) := by
  obtain ⟨mem', h, h1, -⟩ := C67_fill g rd (le_refl n) (fun _ => 0) (m := m) rs cs
  exact ⟨⟨m, n, fun i j => mem' (i * n + j)⟩, by rw [Dense.ofKernel, h, except_bind_ok], rfl, rfl, h1⟩

/-- **C67**, two runs.  Random matrices made in two runs of a program (with other numbers
from the random device), at any offsets: if they have the same number of columns, the rows
that both have are the same. -/
theorem C67_runs_agree [Zero R] (g : Rng R) (rd rd' : Nat → Nat → Nat → Int → Int → Nat) {m m' n : Nat}
    {rs cs rs' cs' : Int} {d d' : Dense R} (h : Dense.ofKernel (randomKernel g rd) m n rs cs = .ok d)
    (h' : Dense.ofKernel (randomKernel g rd') m' n rs' cs' = .ok d') :
    ∀ i < m, i < m' → ∀ j < n, d.val i j = d'.val i j := by
  obtain ⟨e, k, -, -, kv⟩ := C67_dense g rd m n rs cs
  obtain ⟨e', k', -, -, kv'⟩ := C67_dense g rd' m' n rs' cs'
  rw [k] at h; rw [k'] at h'
  cases h; cases h'
  intro i hi hi' j hj
  rw [kv i hi j hj, kv' i hi' j hj]

/-- **C67**: if every number the generator may draw lies in some set (`[0,1)` for
`random_uniform`), so does every entry. -/
theorem C67_range [Zero R] (g : Rng R) (rd : Nat → Nat → Nat → Int → Int → Nat) {P : R → Prop}
    (hP : ∀ s, P (g.draw s).1) {m n : Nat} {rs cs : Int} {d : Dense R}
    (h : Dense.ofKernel (randomKernel g rd) m n rs cs = .ok d) : ∀ i < d.rows, ∀ j < d.cols, P (d.val i j) := by
  obtain ⟨e, k, e0, e1, kv⟩ := C67_dense g rd m n rs cs
  rw [k] at h
  cases h
  intro i hi j hj
  rw [kv i (by omega) j (by omega)]
  exact hP _

private theorem randomFill_eq [Zero R] {g : Rng R} {rd : Nat → Nat → Nat → Int → Int → Nat} {r c r' c' : IndexRange}
    {d d' : Dense R} (h : kernelFill (randomKernel g rd) r c = .ok d)
    (h' : kernelFill (randomKernel g rd) r' c' = .ok d') (e0 : d.rows = d'.rows) (e1 : d.cols = d'.cols) :
    d = d' := by
  have dims : ∀ {r c : IndexRange} {d : Dense R}, kernelFill (randomKernel g rd) r c = .ok d →
      d.rows = r.n.toNat ∧ d.cols = c.n.toNat ∧
        Dense.ofKernel (randomKernel g rd) d.rows d.cols r.start c.start = .ok d := by
    intro r c d h
    simp only [kernelFill] at h
    split at h
    · obtain ⟨e, k, k0, k1, -⟩ := C67_dense g rd r.n.toNat c.n.toNat r.start c.start
      have := h
      rw [k] at this
      cases this
      exact ⟨k0, k1, by rw [k0, k1]; exact k⟩
    · cases h
  obtain ⟨-, -, h⟩ := dims h
  obtain ⟨-, -, h'⟩ := dims h'
  rw [← e0, ← e1] at h'
  have : Dense.ofKernel (randomKernel g rd) d.rows d.cols r.start c.start =
      Dense.ofKernel (randomKernel g rd) d.rows d.cols r'.start c'.start := rfl
  rw [this, h'] at h
  exact (Except.ok.inj h).symm

variable {K : Type} [Field K] [LinearOrder K]

/-- Every leaf of a matrix made by the cluster tree is a filled block or the compression of
one. -/
private theorem toMat_leaves {a : Admis K} {fill : FillFn R} {compress : Dense R → Except Err (LowRank R)}
    (tr : ClusterTree) : ∀ {M : Mat R}, tr.toMat a fill compress = .ok M →
      (∀ d, Mat.BlockOf (.dense d) M → ∃ r c, fill r c = .ok d) ∧
      ∀ l, Mat.BlockOf (.lowRank l) M → ∃ r c d, fill r c = .ok d ∧ compress d = .ok l := by
  induction tr with
  | leaf => intro M h; cases h
  | node t ch ih =>
    intro M h
    rw [ClusterTree.toMat, except_bind_eq_ok] at h
    obtain ⟨blk, hb, h⟩ := h
    cases h
    have key : ∀ i j, (∀ d, Mat.BlockOf (.dense d) (blk i j) → ∃ r c, fill r c = .ok d) ∧
        ∀ l, Mat.BlockOf (.lowRank l) (blk i j) → ∃ r c d, fill r c = .ok d ∧ compress d = .ok l := by
      refine loop_inv (fun _ (s : Nat → Nat → Mat R) => ∀ i j,
        (∀ d, Mat.BlockOf (.dense d) (s i j) → ∃ r c, fill r c = .ok d) ∧
        ∀ l, Mat.BlockOf (.lowRank l) (s i j) → ∃ r c d, fill r c = .ok d ∧ compress d = .ok l)
        (fun i j => ⟨fun d h => (by cases h), fun l h => (by cases h)⟩) ?_ hb
      intro i _ s s' hs e
      refine loop_inv (fun _ (s : Nat → Nat → Mat R) => ∀ i j,
        (∀ d, Mat.BlockOf (.dense d) (s i j) → ∃ r c, fill r c = .ok d) ∧
        ∀ l, Mat.BlockOf (.lowRank l) (s i j) → ∃ r c d, fill r c = .ok d ∧ compress d = .ok l) hs ?_ e
      intro j _ u u' hu e
      rw [except_bind_eq_ok] at e
      obtain ⟨b, hb, e⟩ := e
      have hbl : (∀ d, Mat.BlockOf (.dense d) b → ∃ r c, fill r c = .ok d) ∧
          ∀ l, Mat.BlockOf (.lowRank l) b → ∃ r c d, fill r c = .ok d ∧ compress d = .ok l := by
        rw [except_bind_eq_ok] at hb
        obtain ⟨adm, -, hb⟩ := hb
        split at hb
        · simp only [except_bind_eq_ok] at hb
          obtain ⟨d, hd, l, hl, hb⟩ := hb
          cases hb
          exact ⟨fun d h => (by cases h), fun l' h => by cases h; exact ⟨_, _, d, hd, hl⟩⟩
        · split at hb
          · rw [except_bind_eq_ok] at hb
            obtain ⟨d, hd, hb⟩ := hb
            cases hb
            exact ⟨fun d' h => (by cases h; exact ⟨_, _, hd⟩), fun l h => (by cases h)⟩
          · exact ih i j hb
      simp only [ClusterTree.assign] at e
      split at e
      · split at e
        · cases e
          intro i' j'
          simp only
          split
          · exact hbl
          · exact hu i' j'
        · cases e
      · cases e
    refine ⟨fun d h => ?_, fun l h => ?_⟩
    · cases h with
      | block _ _ _ i j _ _ h => exact (key i j).1 d h
    · cases h with
      | block _ _ _ i j _ _ h => exact (key i j).2 l h

/-- **C67**, hierarchical matrices.  In a hierarchical matrix filled by a random kernel any
two dense blocks with the same dimensions hold the same numbers, and any two low-rank
blocks with the same dimensions have the same factors: the blocks are not independent. -/
theorem C67_equal_blocks [Zero R] (g : Rng R) (rd : Nat → Nat → Nat → Int → Int → Nat)
    {compress : Dense R → Except Err (LowRank R)}
    (hc : ∀ d l, compress d = .ok l → l.dim0 = d.rows ∧ l.dim1 = d.cols) {fuel nRows nCols : Nat} {nleaf : Int}
    {a : Admis K} {br bc : Nat} {rs cs : Int} {M : Mat R}
    (h : hierOfKernel fuel (randomKernel g rd) compress nRows nCols nleaf a br bc rs cs = .ok M) :
    (∀ d d', Mat.BlockOf (.dense d) M → Mat.BlockOf (.dense d') M → d.rows = d'.rows → d.cols = d'.cols →
      d = d') ∧
    ∀ l l', Mat.BlockOf (.lowRank l) M → Mat.BlockOf (.lowRank l') M → l.dim0 = l'.dim0 → l.dim1 = l'.dim1 →
      l = l' := by
  rw [hierOfKernel, except_bind_eq_ok] at h
  obtain ⟨tr, -, h⟩ := h
  obtain ⟨h1, h2⟩ := toMat_leaves tr h
  refine ⟨fun d d' hd hd' e0 e1 => ?_, fun l l' hl hl' e0 e1 => ?_⟩
  · obtain ⟨r, c, k⟩ := h1 d hd
    obtain ⟨r', c', k'⟩ := h1 d' hd'
    exact randomFill_eq k k' e0 e1
  · obtain ⟨r, c, d, k, hk⟩ := h2 l hl
    obtain ⟨r', c', d', k', hk'⟩ := h2 l' hl'
    have := hc d l hk
    have := hc d' l' hk'
    cases randomFill_eq k k' (by omega) (by omega)
    rw [hk] at hk'
    exact Except.ok.inj hk'

/-! ### a generator that counts -/

/-- A generator that draws the seed, then one more, and so on. -/
def countRng : Rng ℤ := ⟨ℤ, fun s => s, fun s => (s, s + 1)⟩

theorem countRng_number (k : Nat) : countRng.number k = k := by
  have : ∀ k : Nat, countRng.stateAfter k = (k : ℤ) := by
    intro k
    induction k with
    | zero => rfl
    | succ k ih => rw [Rng.stateAfter, ih]; simp [countRng]
  rw [Rng.number, this]
  rfl

/-- The offsets are ignored, although the kernels take them "if generating a submatrix":
the part of a random matrix from column 1 on is not the random matrix asked for at that
offset, so a hierarchical random matrix is not the dense one split into blocks. -/
theorem C67_offset_ignored : ∃ (g : Rng ℤ) (full part : Dense ℤ),
    Dense.ofKernel (randomKernel g fun _ _ _ _ _ => 7) 2 2 0 0 = .ok full ∧
    Dense.ofKernel (randomKernel g fun _ _ _ _ _ => 8) 2 1 0 1 = .ok part ∧ part.val 0 0 ≠ full.val 0 1 := by
  obtain ⟨f, hf, -, -, fv⟩ := C67_dense countRng (fun _ _ _ _ _ => 7) 2 2 0 0
  obtain ⟨p, hp, -, -, pv⟩ := C67_dense countRng (fun _ _ _ _ _ => 8) 2 1 0 1
  refine ⟨countRng, f, p, hf, hp, ?_⟩
  rw [fv 0 (by omega) 1 (by omega), pv 0 (by omega) 0 (by omega), countRng_number, countRng_number]
  decide

/-- C67 for a 3-by-2 matrix. -/
example : ∃ d, Dense.ofKernel (randomKernel countRng fun _ _ _ _ _ => 5) 3 2 4 6 = .ok d ∧ d.val 2 1 = 5 := by
  obtain ⟨d, h, -, -, hv⟩ := C67_dense countRng (fun _ _ _ _ _ => 5) 3 2 4 6
  exact ⟨d, h, by rw [hv 2 (by omega) 1 (by omega), countRng_number]; rfl⟩

/-- There are hierarchical random matrices (7-by-9, leaves of size at most 2). -/
example : ∃ fuel M, hierOfKernel fuel (randomKernel countRng fun _ _ _ _ _ => 5) keepAll 7 9 2
    (Admis.position 0 : Admis ℚ) 2 2 0 0 = .ok M :=
  C08_kernel_matrix_succeeds (fun mem m n stride rs cs => by
    obtain ⟨x, hx⟩ : ∃ x, loop m (fun i (s : (Nat → ℤ) × countRng.State) => loop n (fun j s =>
        let d := countRng.draw s.2
        .ok (fun x => if x = i * stride + j then d.1 else s.1 x, d.2)) s) (mem, countRng.seed 0) = .ok x := by
      obtain ⟨x, hx, -⟩ := loop_total (n := m) (s := (mem, countRng.seed 0))
        (body := fun i (s : (Nat → ℤ) × countRng.State) => loop n (fun j s =>
          let d := countRng.draw s.2
          .ok (fun x => if x = i * stride + j then d.1 else s.1 x, d.2)) s) (fun _ _ => True) trivial (by
          intro i _ s _
          obtain ⟨y, hy, -⟩ := loop_total (n := n) (s := s)
            (body := fun j (s : (Nat → ℤ) × countRng.State) =>
              let d := countRng.draw s.2
              .ok (fun x => if x = i * stride + j then d.1 else s.1 x, d.2)) (fun _ _ => True) trivial
            (by intro j _ s _; exact ⟨_, rfl, trivial⟩)
          exact ⟨y, hy, trivial⟩)
      exact ⟨x, hx⟩
    exact ⟨x.1, by rw [randomKernel, except_bind_eq_ok]; exact ⟨x, hx, rfl⟩⟩)
    (fun d => ⟨_, rfl⟩) 7 9 2 (by omega) 0 0 0

end Verif
