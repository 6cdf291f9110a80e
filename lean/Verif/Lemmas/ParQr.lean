import Verif.Model.ParQr
import Verif.Lemmas.OpenMP
import Mathlib.Data.List.Flatten
import Mathlib.Data.List.Range
import Mathlib.Data.Set.Insert
import Mathlib.Tactic.Common

/-
The task graphs of the parallel QR programs cover all conflicts.
-/

namespace Verif.ParQr
open Omp

theorem mem_upto {a lo hi : Nat} : a ∈ upto lo hi ↔ lo ≤ a ∧ a < hi := by
  unfold upto
  rw [List.mem_range'_1]
  omega

theorem mem_downto {a lo hi : Nat} : a ∈ downto hi lo ↔ lo ≤ a ∧ a < hi := by
  unfold downto
  rw [List.mem_reverse, mem_upto]

theorem upto_pairwise (lo hi : Nat) : (upto lo hi).Pairwise (· < ·) := by
  unfold upto
  exact List.pairwise_lt_range'

theorem downto_pairwise (lo hi : Nat) : (downto hi lo).Pairwise (· > ·) := by
  unfold downto
  exact List.pairwise_reverse.2 (upto_pairwise lo hi)

/-! ### lists ordered by a relation -/

section
variable {J : Type} {r : J → J → Prop}

theorem sublist_of_pairwise {l : List J} (hp : l.Pairwise r) (hi : ∀ x, ¬ r x x)
    (ha : ∀ x y, r x y → ¬ r y x) {x y : J} (hx : x ∈ l) (hy : y ∈ l) (h : r x y) :
    [x, y].Sublist l := by
  obtain ⟨l₁, l₂, rfl⟩ := List.append_of_mem hx
  rcases List.mem_append.1 hy with h' | h'
  · exact absurd ((List.pairwise_append.1 hp).2.2 y h' x (by simp)) (ha x y h)
  · rcases List.mem_cons.1 h' with rfl | h'
    · exact absurd h (hi _)
    · exact (List.nil_sublist l₁).append (List.Sublist.cons_cons x (List.singleton_sublist.2 h'))

theorem rel_of_sublist {l : List J} (hp : l.Pairwise r) {x y : J} (h : [x, y].Sublist l) : r x y := by
  have := hp.sublist h
  simpa using this

theorem nodup_of_pairwise {l : List J} (hp : l.Pairwise r) (hi : ∀ x, ¬ r x x) : l.Nodup :=
  hp.imp fun {a b} (h : r a b) => by
    rintro rfl
    exact hi _ h

end

/-- A conflict between bodies is a conflict between the declared cells. -/
theorem conflict_cells {Cell V J : Type} {body : J → List (Step Cell V)} {rd wr : J → Set Cell}
    (hb : Within body rd wr) {x y : J} (h : ∃ σ ∈ body x, ∃ τ ∈ body y, σ.Conflict τ) :
    ∃ c, (c ∈ wr x ∧ (c ∈ rd y ∨ c ∈ wr y)) ∨ (c ∈ rd x ∧ c ∈ wr y) := by
  obtain ⟨σ, hσ, τ, hτ, c, h⟩ := h
  have := hb x σ hσ
  have := hb y τ hτ
  refine ⟨c, ?_⟩
  rcases h with ⟨h1, h2 | h2⟩ | ⟨h1, h2⟩
  · exact .inl ⟨(hb x σ hσ).2 h1, .inl ((hb y τ hτ).1 h2)⟩
  · exact .inl ⟨(hb x σ hσ).2 h1, .inr ((hb y τ hτ).2 h2)⟩
  · exact .inr ⟨(hb x σ hσ).1 h1, (hb y τ hτ).2 h2⟩

/-! ### coordinates -/

/-- Step, row and column of the tile a task is for. -/
structure Pos where
  k : Nat
  i : Nat
  j : Nat

/-- Program order. -/
def Pos.lt (a b : Pos) : Prop := a.k < b.k ∨ (a.k = b.k ∧ (a.i < b.i ∨ (a.i = b.i ∧ a.j < b.j)))

def Job.pos : Job → Pos
  | .geqrt k => ⟨k, k, k⟩
  | .larfb k j => ⟨k, k, j⟩
  | .tpqrt i k => ⟨k, i, k⟩
  | .tpmqrt i j k => ⟨k, i, j⟩

def Pos.job (a : Pos) : Job :=
  if a.i = a.k then if a.j = a.k then .geqrt a.k else .larfb a.k a.j
  else if a.j = a.k then .tpqrt a.i a.k else .tpmqrt a.i a.j a.k

def Pos.Valid (p q : Nat) (a : Pos) : Prop := a.k ≤ a.i ∧ a.i < p ∧ a.k ≤ a.j ∧ a.j < q

theorem mem_tiledJobs {p q : Nat} (hpq : q ≤ p) {x : Job} :
    x ∈ tiledJobs p q ↔ x.pos.Valid p q ∧ x.pos.job = x := by
  unfold tiledJobs
  simp only [List.mem_flatMap, List.mem_range, List.mem_append, List.mem_cons, List.mem_map, mem_upto]
  cases x with
  | geqrt k =>
    simp only [Job.pos, Pos.job, Pos.Valid]
    simp
    omega
  | larfb k j =>
    simp only [Job.pos, Pos.job, Pos.Valid]
    by_cases e : j = k
    · simp [e]
    · simp [e]; omega
  | tpqrt i k =>
    simp only [Job.pos, Pos.job, Pos.Valid]
    simp
    omega
  | tpmqrt i j k =>
    simp only [Job.pos, Pos.job, Pos.Valid]
    by_cases e : j = k <;> by_cases e' : i = k <;> simp [e, e']
    omega

theorem Pos.lt_irrefl (a : Pos) : ¬ a.lt a := by unfold Pos.lt; omega

theorem Pos.lt_asymm (a b : Pos) (h : a.lt b) : ¬ b.lt a := by unfold Pos.lt at *; omega

theorem tiledJobs_pairwise (p q : Nat) : (tiledJobs p q).Pairwise (fun x y => x.pos.lt y.pos) := by
  unfold tiledJobs
  rw [List.pairwise_flatMap]
  constructor
  · intro k _
    rw [List.cons_append, List.pairwise_cons, List.pairwise_append]
    refine ⟨?_, ?_, ?_, ?_⟩
    · intro y hy
      simp only [List.mem_append, List.mem_map, List.mem_flatMap, List.mem_cons, mem_upto] at hy
      rcases hy with ⟨j, hj, rfl⟩ | ⟨i, hi, rfl | ⟨j, hj, rfl⟩⟩ <;> simp only [Job.pos, Pos.lt, true_and] <;> omega
    · rw [List.pairwise_map]
      refine (upto_pairwise _ _).imp ?_
      intro a b h
      simp only [Job.pos, Pos.lt, true_and]
      omega
    · rw [List.pairwise_flatMap]
      constructor
      · intro i hi
        rw [List.pairwise_cons, List.pairwise_map]
        rw [mem_upto] at hi
        constructor
        · intro y hy
          simp only [List.mem_map, mem_upto] at hy
          obtain ⟨j, hj, rfl⟩ := hy
          simp only [Job.pos, Pos.lt, true_and]
          omega
        · refine (upto_pairwise _ _).imp ?_
          intro a b h
          simp only [Job.pos, Pos.lt, true_and]
          omega
      · refine (upto_pairwise _ _).imp ?_
        intro a b h x hx y hy
        simp only [List.mem_map, List.mem_cons] at hx hy
        rcases hx with rfl | ⟨j, -, rfl⟩ <;> rcases hy with rfl | ⟨j', -, rfl⟩ <;>
          simp only [Job.pos, Pos.lt, true_and] <;> omega
    · intro x hx y hy
      simp only [List.mem_map, List.mem_flatMap, List.mem_cons, mem_upto] at hx hy
      obtain ⟨j, hj, rfl⟩ := hx
      rcases hy with ⟨i, hi, rfl | ⟨j', hj', rfl⟩⟩ <;> simp only [Job.pos, Pos.lt, true_and] <;> omega
  · refine (List.pairwise_lt_range (n := q)).imp ?_
    intro a b h x hx y hy
    simp only [List.mem_append, List.mem_map, List.mem_flatMap, List.mem_cons] at hx hy
    have hx' : x.pos.k = a := by
      rcases hx with (rfl | ⟨_, -, rfl⟩) | ⟨_, -, rfl | ⟨_, -, rfl⟩⟩ <;> rfl
    have hy' : y.pos.k = b := by
      rcases hy with (rfl | ⟨_, -, rfl⟩) | ⟨_, -, rfl | ⟨_, -, rfl⟩⟩ <;> rfl
    left
    omega

/-! ### the factorization -/

theorem Pos.pos_job (a : Pos) : a.job.pos = a := by
  obtain ⟨k, i, j⟩ := a
  unfold Pos.job
  dsimp only
  split_ifs <;> simp_all [Job.pos]

theorem job_mem {p q : Nat} (hpq : q ≤ p) {a : Pos} (h : a.Valid p q) : a.job ∈ tiledJobs p q := by
  rw [mem_tiledJobs hpq, a.pos_job]
  exact ⟨h, rfl⟩

theorem job_outs (a : Pos) : a.job.outs = [(a.i, a.j)] := by
  obtain ⟨k, i, j⟩ := a
  unfold Pos.job
  dsimp only
  split_ifs <;> simp_all [Job.outs]

theorem job_ins_left {a : Pos} (h : a.k < a.j) : (a.i, a.k) ∈ a.job.ins := by
  obtain ⟨k, i, j⟩ := a
  unfold Pos.job
  dsimp only at h ⊢
  split_ifs <;> simp_all [Job.ins]

theorem job_ins_above {a : Pos} (h : a.k < a.i) : (a.i - 1, a.j) ∈ a.job.ins := by
  obtain ⟨k, i, j⟩ := a
  unfold Pos.job
  dsimp only at h ⊢
  split_ifs <;> first | omega | simp_all [Job.ins]

/-- What a task writes, by its position. -/
theorem mem_writes {a : Pos} {c : Cell} (h : c ∈ a.job.writes) :
    (∃ h, c = .a a.i a.j h) ∨ (a.i ≠ a.k ∧ ∃ h, c = .a a.k a.j h ∧ (a.j = a.k → h = .upper)) ∨
      (a.j = a.k ∧ c = .t a.i a.k) := by
  obtain ⟨k, i, j⟩ := a
  unfold Pos.job at h
  dsimp only at h ⊢
  split_ifs at h with h1 h2 h2 <;>
    simp only [Job.writes, tileA, Set.mem_union, Set.mem_insert_iff, Set.mem_singleton_iff] at h
  · subst h1 h2; aesop
  · subst h1; aesop
  · subst h2
    aesop
  · aesop

/-- What a task reads, by its position. -/
theorem mem_reads {a : Pos} {c : Cell} (h : c ∈ a.job.reads) :
    c ∈ a.job.writes ∨ (a.j ≠ a.k ∧ ((∃ h, c = .a a.i a.k h ∧ (a.i = a.k → h = .lower)) ∨ c = .t a.i a.k)) := by
  obtain ⟨k, i, j⟩ := a
  unfold Pos.job at h ⊢
  dsimp only at h ⊢
  split_ifs at h ⊢ with h1 h2 h2 <;>
    simp only [Job.writes, Job.reads, tileA, Set.mem_union, Set.mem_insert_iff,
      Set.mem_singleton_iff] at h ⊢
  · aesop
  · subst h1; aesop
  · subst h2; aesop
  · aesop


section
variable {V : Type} {p q : Nat} {body : Job → List (Step Cell V)}

theorem waits_of (hpq : q ≤ p) {a b : Pos} (ha : a.Valid p q) (hb : b.Valid p q) (h : a.lt b)
    (hc : (taskQr p q body).Clash a.job b.job) : (taskQr p q body).Waits a.job b.job := by
  refine ⟨?_, hc⟩
  refine sublist_of_pairwise (tiledJobs_pairwise p q) (fun x => x.pos.lt_irrefl)
    (fun x y => x.pos.lt_asymm y.pos) (job_mem hpq ha) (job_mem hpq hb) ?_
  rw [a.pos_job, b.pos_job]
  exact h

/-- Tasks for the same tile. -/
theorem waits_tile (hpq : q ≤ p) {k k' i j : Nat} (ha : Pos.Valid p q ⟨k, i, j⟩)
    (hb : Pos.Valid p q ⟨k', i, j⟩) (h : k < k') :
    (taskQr p q body).Waits (Pos.job ⟨k, i, j⟩) (Pos.job ⟨k', i, j⟩) := by
  refine waits_of hpq ha hb (.inl h) ⟨(i, j), .inl ⟨?_, .inr ?_⟩⟩ <;>
    simp only [taskQr, job_outs, List.mem_singleton]

/-- The next row. -/
theorem waits_above (hpq : q ≤ p) {k i j : Nat} (ha : Pos.Valid p q ⟨k, i, j⟩)
    (hb : Pos.Valid p q ⟨k, i + 1, j⟩) :
    (taskQr p q body).Waits (Pos.job ⟨k, i, j⟩) (Pos.job ⟨k, i + 1, j⟩) := by
  refine waits_of hpq ha hb (.inr ⟨rfl, .inl (Nat.lt_succ_self i)⟩) ⟨(i, j), .inl ⟨?_, .inl ?_⟩⟩
  · simp only [taskQr, job_outs, List.mem_singleton]
  · exact job_ins_above (a := ⟨k, i + 1, j⟩) (by have := ha.1; dsimp only at this ⊢; omega)

/-- The reflectors a task applies. -/
theorem waits_left (hpq : q ≤ p) {k k' i j : Nat} (ha : Pos.Valid p q ⟨k', i, k⟩)
    (hb : Pos.Valid p q ⟨k, i, j⟩) (h : k < j) :
    (taskQr p q body).Waits (Pos.job ⟨k', i, k⟩) (Pos.job ⟨k, i, j⟩) := by
  have : k' ≤ k := ha.2.2.1
  refine waits_of hpq ha hb ?_ ⟨(i, k), .inl ⟨?_, .inl ?_⟩⟩
  · unfold Pos.lt
    dsimp only
    omega
  · simp only [taskQr, job_outs, List.mem_singleton]
  · exact job_ins_left (a := ⟨k, i, j⟩) h

/-- All later rows. -/
theorem waits_chain (hpq : q ≤ p) {k i j : Nat} (ha : Pos.Valid p q ⟨k, i, j⟩) (d : Nat)
    (hb : i + d + 1 < p) :
    Relation.TransGen (taskQr p q body).Waits (Pos.job ⟨k, i, j⟩) (Pos.job ⟨k, i + d + 1, j⟩) := by
  obtain ⟨h1, h2, h3, h4⟩ := ha
  dsimp only at h1 h2 h3 h4
  induction d with
  | zero => exact .single (waits_above hpq ⟨h1, h2, h3, h4⟩ ⟨by dsimp only; omega, hb, h3, h4⟩)
  | succ d ih =>
    exact .tail (ih (by omega)) (waits_above hpq ⟨by dsimp only; omega, by dsimp only; omega, h3, h4⟩
      ⟨by dsimp only; omega, hb, h3, h4⟩)

theorem waits_rows (hpq : q ≤ p) {k i i' j : Nat} (ha : Pos.Valid p q ⟨k, i, j⟩) (h : i < i')
    (hb : i' < p) :
    Relation.TransGen (taskQr p q body).Waits (Pos.job ⟨k, i, j⟩) (Pos.job ⟨k, i', j⟩) := by
  obtain ⟨d, rfl⟩ : ∃ d, i' = i + d + 1 := ⟨i' - i - 1, by omega⟩
  exact waits_chain hpq ha d hb

theorem taskQr_covered (hpq : q ≤ p) (hb : Within body Job.reads Job.writes) :
    Covered (taskQr p q body) := by
  intro x y hxy hcf
  have hlt := rel_of_sublist (tiledJobs_pairwise p q) hxy
  obtain ⟨vx, ex⟩ := (mem_tiledJobs hpq).1 (hxy.subset (by simp : x ∈ [x, y]))
  obtain ⟨vy, ey⟩ := (mem_tiledJobs hpq).1 (hxy.subset (by simp : y ∈ [x, y]))
  generalize x.pos = a at vx ex hlt
  generalize y.pos = b at vy ey hlt
  subst ex ey
  obtain ⟨k, i, j⟩ := a
  obtain ⟨k', i', j'⟩ := b
  obtain ⟨c, h⟩ := conflict_cells hb hcf
  have vx' := vx
  have vy' := vy
  obtain ⟨x1, x2, x3, x4⟩ := vx
  obtain ⟨y1, y2, y3, y4⟩ := vy
  unfold Pos.lt at hlt
  dsimp only at x1 x2 x3 x4 y1 y2 y3 y4 hlt
  have h' : (c ∈ (Pos.job ⟨k, i, j⟩).writes ∧ c ∈ (Pos.job ⟨k', i', j'⟩).writes) ∨
      (c ∈ (Pos.job ⟨k, i, j⟩).writes ∧ (j' ≠ k' ∧ ((∃ h, c = .a i' k' h ∧ (i' = k' → h = .lower)) ∨
        c = .t i' k'))) ∨
      ((j ≠ k ∧ ((∃ h, c = .a i k h ∧ (i = k → h = .lower)) ∨ c = .t i k)) ∧
        c ∈ (Pos.job ⟨k', i', j'⟩).writes) := by
    rcases h with ⟨h1, h2 | h2⟩ | ⟨h1, h2⟩
    · rcases mem_reads h2 with h2 | h2
      · exact .inl ⟨h1, h2⟩
      · exact .inr (.inl ⟨h1, h2⟩)
    · exact .inl ⟨h1, h2⟩
    · rcases mem_reads h1 with h1 | h1
      · exact .inl ⟨h1, h2⟩
      · exact .inr (.inr ⟨h1, h2⟩)
  rcases h' with ⟨h1, h2⟩ | ⟨h1, n2, h2⟩ | ⟨⟨n1, h1⟩, h2⟩
  · rcases mem_writes h1 with ⟨u, e1⟩ | ⟨n1, u, e1, w1⟩ | ⟨n1, e1⟩ <;>
      rcases mem_writes h2 with ⟨v, e2⟩ | ⟨n2, v, e2, w2⟩ | ⟨n2, e2⟩ <;>
      rw [e1] at e2 <;> cases e2 <;> dsimp only at *
    · exact .single (waits_tile hpq vx' vy' (by omega))
    · -- the target is the upper operand of a later step
      by_cases e : k = i
      · subst e
        exact waits_rows hpq vx' (by omega) y2
      · exact .head (waits_tile hpq vx' (k' := i) ⟨le_rfl, x2, y3, y4⟩ (by omega))
          (waits_rows hpq ⟨le_rfl, x2, y3, y4⟩ (by omega) y2)
    · omega
    · exact waits_rows hpq vx' (by omega) y2
    · omega
  · rcases mem_writes h1 with ⟨u, e1⟩ | ⟨n1, u, e1, w1⟩ | ⟨n1, e1⟩ <;>
      rcases h2 with ⟨v, e2, w2⟩ | e2 <;>
      rw [e1] at e2 <;> cases e2 <;> dsimp only at *
    · exact .single (waits_left hpq vx' vy' (by omega))
    · have e : j = k := by omega
      rw [w1 e] at w2
      exact absurd (w2 e.symm) (by decide)
    · subst n1
      exact .single (waits_left hpq vx' vy' (by omega))
  · rcases mem_writes h2 with ⟨u, e1⟩ | ⟨n2, u, e1, w1⟩ | ⟨n2, e1⟩ <;>
      rcases h1 with ⟨v, e2, w2⟩ | e2 <;>
      rw [e1] at e2 <;> cases e2 <;> dsimp only at *
    · omega
    · have e : j' = k' := by omega
      rw [w1 e] at w2
      exact absurd (w2 e.symm) (by decide)
    · omega

theorem tiledJobs_nodup (p q : Nat) : (tiledJobs p q).Nodup :=
  nodup_of_pairwise (tiledJobs_pairwise p q) (fun x => x.pos.lt_irrefl)

end

end Verif.ParQr
