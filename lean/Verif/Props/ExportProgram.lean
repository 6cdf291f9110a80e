import Verif.Lemmas.ExportProgram
import Verif.Props.Points
import Verif.Props.Compress
import Verif.Lemmas.Svd

/-
C62: the document written by the export program.
-/

namespace Verif
open Finset
variable {K : Type} [Field K] [LinearOrder K] {R : Type}

namespace ClusterTree

theorem at_info {fuel : Nat} {isRoot : Bool} {t : NodeInfo} {tr : ClusterTree} (h : build fuel isRoot t = .ok tr)
    {p : List (Nat × Nat)} {s : ClusterTree} (hp : tr.at? p = some s) :
    s.info = infoAt t p ∧ ∀ x ∈ p, x.1 < t.br ∧ x.2 < t.bc := by
  induction fuel generalizing isRoot t tr p with
  | zero => simp [build] at h
  | succ f ih =>
    cases p with
    | nil =>
      simp only [at?, Option.some.injEq] at hp
      subst hp
      exact ⟨build_info h, by simp⟩
    | cons x p =>
      obtain ⟨i, j⟩ := x
      cases tr with
      | leaf s' => simp [at?] at hp
      | node t' ch =>
        obtain ⟨rfl, -, f', hf', hch⟩ := build_node h
        obtain rfl : f' = f := by omega
        simp only [at?] at hp
        split at hp
        · rename_i hij
          obtain ⟨h1, h2⟩ := ih (hch i hij.1 j hij.2) hp
          refine ⟨h1, fun x hx => ?_⟩
          rcases List.mem_cons.1 hx with rfl | hx
          · exact hij
          · exact h2 x hx
        · cases hp

end ClusterTree

/-- Construction with two block rows and columns returns: only blocks inside the matrix are
filled, and only those with more than one row and column are compressed. -/
theorem hierOfKernel_two [CommRing R] {k : KernelFn R} {m n : Nat} (hk : KernelReturns k m n)
    {compress : Dense R → Except Err (LowRank R)} (hc : ∀ d : Dense R, 1 < d.rows → 1 < d.cols → ∃ l, compress d = .ok l)
    {nleaf : Int} (hl : 1 ≤ nleaf) (admis : Int) :
    ∃ fuel M, hierOfKernel fuel k compress m n nleaf (Admis.position admis : Admis K) 2 2 0 0 = .ok M := by
  classical
  set t := ClusterTree.rootInfo ⟨0, m⟩ ⟨0, n⟩ 2 2 nleaf with ht
  obtain ⟨tr, htr, -⟩ := ClusterTree.build_terminates (m + n + 1) true t 2 (le_refl _)
    (le_refl _) (le_refl _) hl
    (by simp [ht, ClusterTree.rootInfo]
        exact le_trans (by omega) (Nat.lt_two_pow_self (n := m + n + 1)).le)
    (by simp [ht, ClusterTree.rootInfo]
        exact le_trans (by omega) (Nat.lt_two_pow_self (n := m + n + 1)).le)
    (by intro _; omega)
  refine ⟨m + n + 1 + 1, ?_⟩
  obtain ⟨ch, rfl⟩ := build_root_node htr
  have hd : ∀ rows cols d, kernelFill k rows cols = .ok d → (d.rows : Int) = rows.n ∧ (d.cols : Int) = cols.n := by
    intro rows cols d h
    unfold kernelFill at h
    split at h
    · rw [Dense.ofKernel, except_bind_eq_ok] at h
      obtain ⟨mem, -, h⟩ := h
      cases h
      constructor <;> simp <;> omega
    · cases h
  obtain ⟨M, hM⟩ := ClusterTree.toMat_total (a := (Admis.position admis : Admis K))
    (fill := kernelFill k) (compress := fun d => if 1 < d.rows ∧ 1 < d.cols then compress d else keepAll d)
    (fun d => by
      split
      · rename_i h
        exact hc d h.1 h.2
      · exact ⟨_, rfl⟩) htr (by
      intro p s hp
      refine ⟨⟨_, rfl⟩, ?_⟩
      obtain ⟨h1, h2⟩ := ClusterTree.at_info htr hp
      obtain ⟨e1, e2, -⟩ := ClusterTree.infoAt_half t rfl rfl (m := m) (n := n) rfl rfl p h2
      rw [h1, e1, e2]
      have b1 := halving_le m (p.map Prod.fst)
      have b2 := halving_le n (p.map Prod.snd)
      obtain ⟨mem, hm⟩ := hk (fun _ => 0) _ _ (halving n (p.map Prod.snd)).2 _ _ b1 b2
      simp only [ht, ClusterTree.rootInfo, zero_add, kernelFill, Int.natCast_nonneg, and_self, if_true, Dense.ofKernel,
        Int.toNat_natCast, hm, except_bind_ok]
      exact ⟨_, rfl⟩)
  refine ⟨M, ?_⟩
  rw [hierOfKernel, ← ht, htr, except_bind_ok, ← hM]
  exact ClusterTree.toMat_compress_congr hd (fun d h1 h2 => by rw [if_pos ⟨h1, h2⟩]) _

/-- The Laplace kernel can be evaluated wherever there are points. -/
theorem laplace_returns_points {x : List ℝ} {m n : Nat} (hm : m ≤ x.length) (hn : n ≤ x.length) :
    KernelReturns (Builtin.laplacend.kernel [x]) m n := by
  intro mem m' n' stride r c h1 h2
  refine kernelLoop_exists fun i hi j hj => ?_
  have h := (C10_values [x] (r + i) (c + j)
    (by simp only [List.mem_cons, List.not_mem_nil, or_false]; rintro p rfl; omega)
    (by simp only [List.mem_cons, List.not_mem_nil, or_false]; rintro p rfl; omega)).2.2.1
  rw [Nat.cast_add, Nat.cast_add] at h
  exact ⟨_, h⟩

/-- C62: the program finishes for every matrix size, every leaf size of at least one and every
admissibility constant. -/
theorem C62_returns {sort : (ℝ → ℝ → Bool) → List ℝ → List ℝ} (hsort : SortSpec sort) (draw : Nat → ℝ)
    (sv : Dense ℝ → List ℝ) {compress : Dense ℝ → Except Err (LowRank ℝ)} (hf : FittingCompressor compress)
    (hc : ∀ d : Dense ℝ, 1 < d.rows → 1 < d.cols → ∃ l, compress d = .ok l) (N : Nat) {nleaf : Int} (hl : 1 ≤ nleaf)
    (admis : Int) : ∃ fuel J, exportProgram fuel sort draw sv compress N nleaf admis = .ok J := by
  have hN := (C60_sorted hsort draw N).1
  obtain ⟨fuel, M, hM⟩ := hierOfKernel_two (K := ℝ) (laplace_returns_points (m := N) (n := N) hN.ge hN.ge) hc hl admis
  obtain ⟨w, -⟩ := C08_kernel_matrix (C10_computes_entries _ _) hf (by omega) (by omega) hM
  obtain ⟨J, hJ⟩ := C49_returns sv M w
  exact ⟨fuel, J, by simp only [exportProgram, hM, except_bind_ok, hJ]⟩

/-- Entry of the one-dimensional Laplace kernel for the points `x`. -/
noncomputable def laplaceAt (x : List ℝ) (i j : Nat) : ℝ := 1 / (|x.getD i 0 - x.getD j 0| + 1 / 1000)

/-- `d` is the block of the kernel matrix whose rows and columns are reached by the halvings `p`. -/
def IsKernelBlock (x : List ℝ) (N : Nat) (p : List (Nat × Nat)) (d : Dense ℝ) : Prop :=
  d.rows = (halving N (p.map Prod.fst)).2 ∧ d.cols = (halving N (p.map Prod.snd)).2 ∧
    ∀ i < d.rows, ∀ j < d.cols,
      d.val i j = laplaceAt x ((halving N (p.map Prod.fst)).1 + i) ((halving N (p.map Prod.snd)).1 + j)

/-- The block at `p` is to be compressed: more than one row and column, and block row and block column
farther apart than `admis`. -/
def IsFar (N : Nat) (admis : Int) (p : List (Nat × Nat)) : Prop :=
  1 < (halving N (p.map Prod.fst)).2 ∧ 1 < (halving N (p.map Prod.snd)).2 ∧
    admis < |(binary (p.map Prod.fst) : Int) - binary (p.map Prod.snd)|

/-- The block at `p` has at most `nleaf` rows and columns. -/
def IsSmall (N : Nat) (nleaf : Int) (p : List (Nat × Nat)) : Prop :=
  (halving N (p.map Prod.fst)).2 ≤ nleaf ∧ (halving N (p.map Prod.snd)).2 ≤ nleaf

theorem binary_inj (p q : List Nat) (hl : p.length = q.length) (hp : ∀ d ∈ p, d < 2) (hq : ∀ d ∈ q, d < 2)
    (h : binary p = binary q) : p = q := by
  suffices ∀ x y, p.foldl (fun x d => 2 * x + d) x = q.foldl (fun x d => 2 * x + d) y → x = y ∧ p = q from
    (this 0 0 h).2
  clear h
  induction p generalizing q with
  | nil =>
    intro x y h
    cases q with
    | nil => exact ⟨h, rfl⟩
    | cons => simp at hl
  | cons a p ih =>
    intro x y h
    cases q with
    | nil => simp at hl
    | cons b q =>
      obtain ⟨h1, rfl⟩ := ih q (by simpa using hl) (fun d hd => hp d (by simp [hd])) (fun d hd => hq d (by simp [hd])) _ _ h
      simp only at h1
      have := hp a (by simp)
      have := hq b (by simp)
      obtain rfl : a = b := by omega
      exact ⟨by omega, rfl⟩

/-- C62: every object of the document.  The object reached by `p` has the dimensions that repeated
halving gives, the nesting depth as level and its block row and block column as position; it is a
low-rank leaf with the rank and the singular values of the compressed block if it is far from the
diagonal, otherwise a dense leaf with the singular values of the block if it is small, otherwise it has
two by two children. -/
theorem C62_document {sort : (ℝ → ℝ → Bool) → List ℝ → List ℝ} (hsort : SortSpec sort) {draw : Nat → ℝ}
    {sv : Dense ℝ → List ℝ} {compress : Dense ℝ → Except Err (LowRank ℝ)} (hf : FittingCompressor compress) {fuel N : Nat}
    {nleaf : Int} (hl : 1 ≤ nleaf) {admis : Int} {J n : JsonNode ℝ}
    (h : exportProgram fuel sort draw sv compress N nleaf admis = .ok J) {p : List (Nat × Nat)} (hp : JsonPath J p n) :
    n.fields.rows = (halving N (p.map Prod.fst)).2 ∧ n.fields.cols = (halving N (p.map Prod.snd)).2 ∧
    n.fields.level = some p.length ∧ n.fields.pos = some (binary (p.map Prod.fst), binary (p.map Prod.snd)) ∧
    (p ≠ [] → IsFar N admis p → ∃ f d l e, n = .leaf f ∧ f.type = .lowRank ∧
      IsKernelBlock (getSortedRandomVector sort draw N) N p d ∧ compress d = .ok l ∧ l.toDense = .ok e ∧
      f.rank = some l.rank ∧ f.svalues = some (sv e)) ∧
    (p ≠ [] → ¬ IsFar N admis p → IsSmall N nleaf p → ∃ f d, n = .leaf f ∧ f.type = .dense ∧
      IsKernelBlock (getSortedRandomVector sort draw N) N p d ∧ f.rank = none ∧ f.svalues = some (sv d)) ∧
    (p = [] ∨ ¬ IsFar N admis p ∧ ¬ IsSmall N nleaf p → ∃ f ch, n = .node f 2 2 ch ∧ f.type = .hier) := by
  have hN := (C60_sorted hsort draw N).1
  simp only [exportProgram, except_bind_eq_ok] at h
  obtain ⟨M, hM, hJ⟩ := h
  set x := getSortedRandomVector sort draw N with hx
  obtain ⟨w, m0, n0, -⟩ := C08_kernel_matrix (C10_computes_entries _ _) hf (by omega) (by omega) hM
  obtain ⟨gs, B, hB⟩ := ((C49_mirrors_partial hJ).1 p).2 ⟨n, hp⟩
  obtain ⟨n', hn', hBn⟩ := toJson_path hB hJ
  cases hp.functional hn'
  obtain ⟨-, f2, f3, f4, -⟩ := toJson_fields hBn
  rw [hierOfKernel, except_bind_eq_ok] at hM
  obtain ⟨tr, htr, hM⟩ := hM
  obtain ⟨ch, rfl⟩ := build_root_node htr
  obtain ⟨hgs, hdig, hroot, hblk⟩ := ClusterTree.toMat_paths htr hM hB
  obtain ⟨e1, e2, e3, e4, e5, e6, e7⟩ := ClusterTree.infoAt_half (ClusterTree.rootInfo ⟨0, N⟩ ⟨0, N⟩ 2 2 nleaf) rfl rfl
    (m := N) (n := N) rfl rfl p hdig
  rw [show gs = List.replicate p.length (2, 2) from hgs, absPos_two] at f4
  simp only [Nat.zero_mul, Nat.zero_add] at f4
  have b1 := foldl_binary (p.map Prod.fst) 0
  have b2 := foldl_binary (p.map Prod.snd) 0
  simp only [ClusterTree.rootInfo, zero_add] at e1 e2 e3 e6 e7
  rw [show ((0 : Nat) : Int) = 0 from rfl] at b1 b2
  rw [b1] at e6
  rw [b2] at e7
  by_cases hp0 : p = []
  · obtain ⟨blk, rfl⟩ := hroot hp0
    subst hp0
    cases hB
    obtain ⟨g1, g2⟩ := f4 (nofun)
    refine ⟨by rw [f2, m0]; rfl, by rw [f3, n0]; rfl, g1, g2, fun h => absurd rfl h, fun h => absurd rfl h, fun _ => ?_⟩
    simp only [Mat.toJson, except_bind_eq_ok] at hBn
    obtain ⟨_, -, _, -, c, -, hc⟩ := hBn
    cases hc
    exact ⟨_, c, rfl, rfl⟩
  · have hI := hblk hp0
    have hfill := kernelFill_ok (C10_computes_entries .laplacend [x])
    have hfar : ∀ b, isAdmissible (Admis.position admis : Admis ℝ) (ClusterTree.infoAt (ClusterTree.rootInfo ⟨0, N⟩ ⟨0, N⟩ 2 2 nleaf) p) = .ok b →
        (b = true ↔ IsFar N admis p) := by
      intro b hb
      simp only [isAdmissible, Except.ok.injEq, ClusterTree.rootInfo, ClusterTree.distToDiag, e1, e2, e6, e7] at hb
      rw [← hb]
      simp [IsFar, binary, and_assoc]
    have hsmall : ClusterTree.isLeaf (ClusterTree.infoAt (ClusterTree.rootInfo ⟨0, N⟩ ⟨0, N⟩ 2 2 nleaf) p) = true ↔ IsSmall N nleaf p := by
      simp only [ClusterTree.isLeaf, ClusterTree.rootInfo, e1, e2, e3]
      simp [IsSmall, show nleaf ≠ 0 by omega]
    have hker : ∀ d, kernelFill (Builtin.laplacend.kernel [x]) (ClusterTree.infoAt (ClusterTree.rootInfo ⟨0, N⟩ ⟨0, N⟩ 2 2 nleaf) p).rows
        (ClusterTree.infoAt (ClusterTree.rootInfo ⟨0, N⟩ ⟨0, N⟩ 2 2 nleaf) p).cols = .ok d → IsKernelBlock x N p d := by
      intro d hd
      obtain ⟨d1, d2, d3⟩ := hfill _ _ d hd
      simp only [ClusterTree.rootInfo, e1, e2] at d1 d2 d3
      have c1 := halving_le N (p.map Prod.fst)
      have c2 := halving_le N (p.map Prod.snd)
      refine ⟨by omega, by omega, fun i hi j hj => ?_⟩
      rw [d3 i hi j hj, ← Nat.cast_add, ← Nat.cast_add, (C10_values [x] ((halving N (p.map Prod.fst)).1 + i) ((halving N (p.map Prod.snd)).1 + j)
        (by simp only [List.mem_cons, List.not_mem_nil, or_false]; rintro p rfl; omega)
        (by simp only [List.mem_cons, List.not_mem_nil, or_false]; rintro p rfl; omega)).2.2.1]
      simp [laplaceAt, Real.sqrt_sq_eq_abs]
    rcases hI with ⟨ha, d, l, hd, hl', rfl⟩ | ⟨ha, hlf, d, hd, rfl⟩ | ⟨ha, hlf, ⟨blk, hbk⟩, fu, ir, ch', hbu, htm⟩
    · have h1 := (hfar true ha).1 rfl
      obtain ⟨g1, g2⟩ := f4 (nofun)
      obtain ⟨k1, k2, k3⟩ := hker d hd
      obtain ⟨-, l1, l2⟩ := hf d l hl'
      simp only [Mat.toJson, except_bind_eq_ok] at hBn
      obtain ⟨e, he, hBn⟩ := hBn
      cases hBn
      exact ⟨by rw [← k1, ← l1]; rfl, by rw [← k2, ← l2]; rfl, g1, g2, fun _ _ => ⟨_, d, l, e, rfl, rfl, ⟨k1, k2, k3⟩, hl', he, rfl, rfl⟩,
        fun _ h => absurd h1 h, fun h => h.elim (fun h => absurd h hp0) (fun h => absurd h1 h.1)⟩
    · have h1 : ¬ IsFar N admis p := fun h => by simpa using (hfar false ha).2 h
      obtain ⟨g1, g2⟩ := f4 (nofun)
      obtain ⟨k1, k2, k3⟩ := hker d hd
      cases hBn
      exact ⟨by rw [← k1]; rfl, by rw [← k2]; rfl, g1, g2, fun _ h => absurd h h1, fun _ _ _ => ⟨_, d, rfl, rfl, ⟨k1, k2, k3⟩, rfl, rfl⟩,
        fun h => h.elim (fun h => absurd h hp0) (fun h => absurd (hsmall.1 hlf) h.2)⟩
    · have h1 : ¬ IsFar N admis p := fun h => by simpa using (hfar false ha).2 h
      have h2 : ¬ IsSmall N nleaf p := fun h => by rw [hsmall.2 h] at hlf; cases hlf
      obtain ⟨-, -, q1, q2, -⟩ := ClusterTree.toMat_spec hf (fun r c d h => ⟨(hfill r c d h).1, (hfill r c d h).2.1⟩) hbu
        (by rw [e4]; omega) (by rw [e5]; omega) htm
      simp only [ClusterTree.rootInfo, e1, e2] at q1 q2
      rw [e4, e5] at hbk
      subst hbk
      obtain ⟨g1, g2⟩ := f4 (nofun)
      refine ⟨by omega, by omega, g1, g2, fun _ h => absurd h h1, fun _ _ h => absurd h h2, fun _ => ?_⟩
      simp only [Mat.toJson, except_bind_eq_ok] at hBn
      obtain ⟨_, -, _, -, c, -, hc⟩ := hBn
      cases hc
      exact ⟨_, c, rfl, rfl⟩

/-- C62: every entry of the matrix belongs to exactly one object without children. -/
theorem C62_covers {sort : (ℝ → ℝ → Bool) → List ℝ → List ℝ} (hsort : SortSpec sort) {draw : Nat → ℝ}
    {sv : Dense ℝ → List ℝ} {compress : Dense ℝ → Except Err (LowRank ℝ)} (hf : FittingCompressor compress) {fuel N : Nat}
    {nleaf : Int} (hl : 1 ≤ nleaf) {admis : Int} {J : JsonNode ℝ}
    (h : exportProgram fuel sort draw sv compress N nleaf admis = .ok J) {i j : Nat} (hi : i < N) (hj : j < N) :
    ∃! p, (∃ f, JsonPath J p (.leaf f)) ∧
      (halving N (p.map Prod.fst)).1 ≤ i ∧ i < (halving N (p.map Prod.fst)).1 + (halving N (p.map Prod.fst)).2 ∧
      (halving N (p.map Prod.snd)).1 ≤ j ∧ j < (halving N (p.map Prod.snd)).1 + (halving N (p.map Prod.snd)).2 := by
  refine JsonNode.cover J (fun p f br bc ch hp => ?_) hi hj
  obtain ⟨-, -, -, -, h1, h2, h3⟩ := C62_document hsort hf hl h hp
  by_cases hp0 : p = []
  · obtain ⟨_, _, e, -⟩ := h3 (Or.inl hp0)
    cases e
    exact ⟨rfl, rfl⟩
  · by_cases hfar : IsFar N admis p
    · obtain ⟨_, _, _, _, e, -⟩ := h1 hp0 hfar
      cases e
    · by_cases hs : IsSmall N nleaf p
      · obtain ⟨_, _, e, -⟩ := h2 hp0 hfar hs
        cases e
      · obtain ⟨_, _, e, -⟩ := h3 (Or.inr ⟨hfar, hs⟩)
        cases e
        exact ⟨rfl, rfl⟩

theorem export_digits {sort : (ℝ → ℝ → Bool) → List ℝ → List ℝ} {draw : Nat → ℝ}
    {sv : Dense ℝ → List ℝ} {compress : Dense ℝ → Except Err (LowRank ℝ)} {fuel N : Nat}
    {nleaf admis : Int} {J n : JsonNode ℝ}
    (h : exportProgram fuel sort draw sv compress N nleaf admis = .ok J) {p : List (Nat × Nat)} (hp : JsonPath J p n) :
    ∀ x ∈ p, x.1 < 2 ∧ x.2 < 2 := by
  simp only [exportProgram, except_bind_eq_ok] at h
  obtain ⟨M, hM, hJ⟩ := h
  obtain ⟨gs, B, hB⟩ := ((C49_mirrors_partial hJ).1 p).2 ⟨n, hp⟩
  rw [hierOfKernel, except_bind_eq_ok] at hM
  obtain ⟨tr, htr, hM⟩ := hM
  obtain ⟨ch, rfl⟩ := build_root_node htr
  exact (ClusterTree.toMat_paths htr hM hB).2.1

/-- C62: level and position tell the objects of the document apart. -/
theorem C62_unique {sort : (ℝ → ℝ → Bool) → List ℝ → List ℝ} (hsort : SortSpec sort) {draw : Nat → ℝ}
    {sv : Dense ℝ → List ℝ} {compress : Dense ℝ → Except Err (LowRank ℝ)} (hf : FittingCompressor compress) {fuel N : Nat}
    {nleaf : Int} (hl : 1 ≤ nleaf) {admis : Int} {J n n' : JsonNode ℝ}
    (h : exportProgram fuel sort draw sv compress N nleaf admis = .ok J) {p p' : List (Nat × Nat)}
    (hp : JsonPath J p n) (hp' : JsonPath J p' n') (e1 : n.fields.level = n'.fields.level)
    (e2 : n.fields.pos = n'.fields.pos) : p = p' := by
  obtain ⟨-, -, l1, q1, -⟩ := C62_document hsort hf hl h hp
  obtain ⟨-, -, l2, q2, -⟩ := C62_document hsort hf hl h hp'
  have d1 := export_digits h hp
  have d2 := export_digits h hp'
  rw [l1, l2, Option.some.injEq] at e1
  rw [q1, q2, Option.some.injEq, Prod.mk.injEq] at e2
  have f1 := binary_inj (p.map Prod.fst) (p'.map Prod.fst) (by simpa using e1) (by simpa using fun a b h => (d1 _ h).1)
    (by simpa using fun a b h => (d2 _ h).1) e2.1
  have f2 := binary_inj (p.map Prod.snd) (p'.map Prod.snd) (by simpa using e1) (by simpa using fun a b h => (d1 _ h).2)
    (by simpa using fun a b h => (d2 _ h).2) e2.2
  rw [← List.zip_unzip p, ← List.zip_unzip p', List.unzip_eq_map, List.unzip_eq_map]
  simp only [f1, f2]

/-- C62: with the library's own compression the low-rank objects describe matrices that
differ from the kernel block by at most `sqrt n eps` times its norm, or `sqrt n` times machine precision. -/
theorem C62_accuracy {sort : (ℝ → ℝ → Bool) → List ℝ → List ℝ} (hsort : SortSpec sort) {draw : Nat → ℝ}
    {sv : Dense ℝ → List ℝ} {E : Geqp3Env} (hE : E.Sound) {L : Lapack ℝ} (hL : L.Factors) {eps : ℝ} (he : 0 ≤ eps)
    {fuel N : Nat} {nleaf : Int} (hl : 1 ≤ nleaf) {admis : Int} {J n : JsonNode ℝ}
    (h : exportProgram fuel sort draw sv (fun d => lowRankOfEps E L d eps) N nleaf admis = .ok J)
    {p : List (Nat × Nat)} (hp : JsonPath J p n) (hp0 : p ≠ []) (hfar : IsFar N admis p) :
    ∃ f d e, n = .leaf f ∧ IsKernelBlock (getSortedRandomVector sort draw N) N p d ∧ f.svalues = some (sv e) ∧
      e.rows = d.rows ∧ e.cols = d.cols ∧
      Real.sqrt (∑ i ∈ range d.rows, ∑ j ∈ range d.cols, (d.val i j - e.val i j) ^ 2) ≤
        Real.sqrt d.cols *
          max E.tol (eps * Real.sqrt (∑ i ∈ range d.rows, ∑ j ∈ range d.cols, d.val i j ^ 2)) := by
  obtain ⟨-, -, -, -, h1, -⟩ := C62_document hsort (lowRankOfEps_fits hE he) hl h hp
  obtain ⟨f, d, l, e, rfl, -, hd, hc, hD, -, hs⟩ := h1 hp0 hfar
  obtain ⟨w, l0, l1⟩ := lowRankOfEps_fits hE he d l hc
  obtain ⟨D, hD', a0, a1, a2⟩ := Mat.LowRank_toDense_ok l w
  rw [hD] at hD'
  cases Except.ok.inj hD'
  have := C61_low_rank hE hL he hc
  refine ⟨f, d, e, rfl, hd, hs, a0.trans l0, a1.trans l1, le_trans (le_of_eq ?_) this⟩
  congr 1
  refine Finset.sum_congr rfl fun i _ => Finset.sum_congr rfl fun j _ => ?_
  rw [a2]

section Examples

/-- The program with its default arguments: size 128, leaves of order 32, accuracy 1e-6, admissibility 0. -/
example (draw : Nat → ℝ) (sv : Dense ℝ → List ℝ) : ∃ (E : Geqp3Env) (L : Lapack ℝ) (fuel : Nat) (J : JsonNode ℝ),
    E.Sound ∧ L.Factors ∧
    exportProgram fuel (fun lt l => l.mergeSort fun a b => !lt b a) draw sv (fun d => lowRankOfEps E L d (1 / 10 ^ 6))
      128 32 0 = .ok J := by
  obtain ⟨E, hE, ht, hp⟩ := Geqp3Env.exists_sound (1 / 2 ^ 53) (.ok 0)
  obtain ⟨L, hF, -⟩ := Lapack.exists_contract
  have he : (0 : ℝ) ≤ 1 / 10 ^ 6 := by positivity
  obtain ⟨fuel, J, h⟩ := C62_returns mergeSort_sortSpec draw sv (lowRankOfEps_fits (L := L) hE he)
    (fun d h _ => C61_returns E hp hE L (by omega) he) 128 (nleaf := 32) (by omega) 0
  exact ⟨E, L, fuel, J, hE, hF, h⟩

/-- In that run the second block of the second block row of the first quarter is small and on the
diagonal, its neighbour is compressed; both exist. -/
example : ¬ IsFar 128 0 [(0, 0), (1, 1)] ∧ IsSmall 128 32 [(0, 0), (1, 1)] ∧ IsFar 128 0 [(0, 0), (0, 1)] ∧
    ¬ IsFar 128 0 [(0, 0)] ∧ ¬ IsSmall 128 32 [(0, 0)] := by
  simp [IsFar, IsSmall, halving, binary]

/-- An odd size: 7 rows are cut into 4 and 3, and the second part into 2 and 1. -/
example : halving 7 [1, 0] = (4, 2) ∧ halving 7 [1, 1] = (6, 1) ∧ binary [1, 0] = 2 := by
  simp [halving, binary]

end Examples
end Verif
