import Verif.Lemmas.ParQr

/-
The regions that multiply with the reflectors, and fork-join programs.
-/

namespace Verif.ParQr
open Omp

def QJob.pos : QJob → Pos
  | .larfb k j => ⟨k, k, j⟩
  | .tpmqrt i j k => ⟨k, i, j⟩

def Pos.qjob (a : Pos) : QJob := if a.i = a.k then .larfb a.k a.j else .tpmqrt a.i a.j a.k

theorem Pos.pos_qjob (a : Pos) : a.qjob.pos = a := by
  obtain ⟨k, i, j⟩ := a
  unfold Pos.qjob
  dsimp only
  split_ifs <;> simp_all [QJob.pos]

theorem mem_applyJobs {p q : Nat} (hpq : q ≤ p) {x : QJob} :
    x ∈ applyJobs p q ↔ x.pos.Valid p q ∧ x.pos.qjob = x := by
  unfold applyJobs
  simp only [List.mem_flatMap, List.mem_range, List.mem_append, List.mem_map, mem_upto]
  cases x with
  | larfb k j =>
    simp only [QJob.pos, Pos.qjob, Pos.Valid]
    simp
    omega
  | tpmqrt i j k =>
    simp only [QJob.pos, Pos.qjob, Pos.Valid]
    by_cases e : i = k <;> simp [e]
    omega

theorem applyJobs_pairwise (p q : Nat) : (applyJobs p q).Pairwise (fun x y => x.pos.lt y.pos) := by
  unfold applyJobs
  rw [List.pairwise_flatMap]
  constructor
  · intro k _
    rw [List.pairwise_append]
    refine ⟨?_, ?_, ?_⟩
    · rw [List.pairwise_map]
      refine (upto_pairwise _ _).imp ?_
      intro a b h
      simp only [QJob.pos, Pos.lt, true_and]
      omega
    · rw [List.pairwise_flatMap]
      constructor
      · intro i hi
        rw [List.pairwise_map]
        refine (upto_pairwise _ _).imp ?_
        intro a b h
        simp only [QJob.pos, Pos.lt, true_and]
        omega
      · refine (upto_pairwise _ _).imp ?_
        intro a b h x hx y hy
        simp only [List.mem_map] at hx hy
        obtain ⟨j, -, rfl⟩ := hx
        obtain ⟨j', -, rfl⟩ := hy
        simp only [QJob.pos, Pos.lt, true_and]
        omega
    · intro x hx y hy
      simp only [List.mem_map, List.mem_flatMap, mem_upto] at hx hy
      obtain ⟨j, hj, rfl⟩ := hx
      obtain ⟨i, hi, ⟨j', hj', rfl⟩⟩ := hy
      simp only [QJob.pos, Pos.lt, true_and]
      omega
  · refine (List.pairwise_lt_range (n := q)).imp ?_
    intro a b h x hx y hy
    simp only [List.mem_append, List.mem_map, List.mem_flatMap] at hx hy
    have hx' : x.pos.k = a := by
      rcases hx with ⟨_, -, rfl⟩ | ⟨_, -, ⟨_, -, rfl⟩⟩ <;> rfl
    have hy' : y.pos.k = b := by
      rcases hy with ⟨_, -, rfl⟩ | ⟨_, -, ⟨_, -, rfl⟩⟩ <;> rfl
    left
    omega

theorem applyJobs_nodup (p q : Nat) : (applyJobs p q).Nodup :=
  nodup_of_pairwise (applyJobs_pairwise p q) (fun x => x.pos.lt_irrefl)

theorem qjob_outs (a : Pos) : a.qjob.outs = [(a.i, a.j)] := by
  obtain ⟨k, i, j⟩ := a
  unfold Pos.qjob
  dsimp only
  split_ifs <;> simp_all [QJob.outs]

theorem qjob_ins_above {a : Pos} (h : a.k < a.i) : (a.i - 1, a.j) ∈ a.qjob.ins := by
  obtain ⟨k, i, j⟩ := a
  unfold Pos.qjob
  dsimp only at h ⊢
  split_ifs <;> first | omega | simp_all [QJob.ins]

theorem mem_qwrites {a : Pos} {c : Cell} (h : c ∈ a.qjob.writes) :
    c = .q a.i a.j ∨ (a.i ≠ a.k ∧ c = .q a.k a.j) := by
  obtain ⟨k, i, j⟩ := a
  unfold Pos.qjob at h
  dsimp only at h ⊢
  split_ifs at h with h1 <;>
    simp only [QJob.writes, Set.mem_insert_iff, Set.mem_singleton_iff] at h
  · subst h1; aesop
  · aesop

theorem mem_qreads {x : QJob} {c : Cell} (h : c ∈ x.reads) :
    c ∈ x.writes ∨ (∀ i j, c ≠ .q i j) := by
  cases x <;> simp only [QJob.reads, QJob.writes, tileA, Set.mem_union, Set.mem_insert_iff,
      Set.mem_singleton_iff] at h ⊢
  · aesop
  · aesop

theorem qwrites_q {x : QJob} {c : Cell} (h : c ∈ x.writes) : ∃ i j, c = .q i j := by
  cases x <;> simp only [QJob.writes, Set.mem_insert_iff, Set.mem_singleton_iff] at h <;> aesop

/-- Tasks that multiply with the reflectors conflict only where both write. -/
theorem q_conflict {x y : QJob} {c : Cell}
    (h : (c ∈ x.writes ∧ (c ∈ y.reads ∨ c ∈ y.writes)) ∨ (c ∈ x.reads ∧ c ∈ y.writes)) :
    c ∈ x.writes ∧ c ∈ y.writes := by
  rcases h with ⟨h1, h2 | h2⟩ | ⟨h1, h2⟩
  · rcases mem_qreads h2 with h2 | h2
    · exact ⟨h1, h2⟩
    · obtain ⟨i, j, e⟩ := qwrites_q h1
      exact absurd e (h2 i j)
  · exact ⟨h1, h2⟩
  · rcases mem_qreads h1 with h1 | h1
    · exact ⟨h1, h2⟩
    · obtain ⟨i, j, e⟩ := qwrites_q h2
      exact absurd e (h1 i j)

section
variable {V : Type} {p q : Nat} {body : QJob → List (Step Cell V)}

theorem qwaits_of (hpq : q ≤ p) {a b : Pos} (ha : a.Valid p q) (hb : b.Valid p q) (h : a.lt b)
    (hc : (taskApplyQ p q body).Clash a.qjob b.qjob) :
    (taskApplyQ p q body).Waits a.qjob b.qjob := by
  refine ⟨?_, hc⟩
  refine sublist_of_pairwise (applyJobs_pairwise p q) (fun x => x.pos.lt_irrefl)
    (fun x y => x.pos.lt_asymm y.pos) ?_ ?_ ?_
  · rw [mem_applyJobs hpq, a.pos_qjob]; exact ⟨ha, rfl⟩
  · rw [mem_applyJobs hpq, b.pos_qjob]; exact ⟨hb, rfl⟩
  · rw [a.pos_qjob, b.pos_qjob]
    exact h

theorem qwaits_tile (hpq : q ≤ p) {k k' i j : Nat} (ha : Pos.Valid p q ⟨k, i, j⟩)
    (hb : Pos.Valid p q ⟨k', i, j⟩) (h : k < k') :
    (taskApplyQ p q body).Waits (Pos.qjob ⟨k, i, j⟩) (Pos.qjob ⟨k', i, j⟩) := by
  refine qwaits_of hpq ha hb (.inl h) ⟨(i, j), .inl ⟨?_, .inr ?_⟩⟩ <;>
    simp only [taskApplyQ, qjob_outs, List.mem_singleton]

theorem qwaits_above (hpq : q ≤ p) {k i j : Nat} (ha : Pos.Valid p q ⟨k, i, j⟩)
    (hb : Pos.Valid p q ⟨k, i + 1, j⟩) :
    (taskApplyQ p q body).Waits (Pos.qjob ⟨k, i, j⟩) (Pos.qjob ⟨k, i + 1, j⟩) := by
  refine qwaits_of hpq ha hb (.inr ⟨rfl, .inl (Nat.lt_succ_self i)⟩) ⟨(i, j), .inl ⟨?_, .inl ?_⟩⟩
  · simp only [taskApplyQ, qjob_outs, List.mem_singleton]
  · exact qjob_ins_above (a := ⟨k, i + 1, j⟩) (by have := ha.1; dsimp only at this ⊢; omega)

theorem qwaits_chain (hpq : q ≤ p) {k i j : Nat} (ha : Pos.Valid p q ⟨k, i, j⟩) (d : Nat)
    (hb : i + d + 1 < p) :
    Relation.TransGen (taskApplyQ p q body).Waits (Pos.qjob ⟨k, i, j⟩) (Pos.qjob ⟨k, i + d + 1, j⟩) := by
  obtain ⟨h1, h2, h3, h4⟩ := ha
  dsimp only at h1 h2 h3 h4
  induction d with
  | zero => exact .single (qwaits_above hpq ⟨h1, h2, h3, h4⟩ ⟨by dsimp only; omega, hb, h3, h4⟩)
  | succ d ih =>
    exact .tail (ih (by omega)) (qwaits_above hpq ⟨by dsimp only; omega, by dsimp only; omega, h3, h4⟩
      ⟨by dsimp only; omega, hb, h3, h4⟩)

theorem qwaits_rows (hpq : q ≤ p) {k i i' j : Nat} (ha : Pos.Valid p q ⟨k, i, j⟩) (h : i < i')
    (hb : i' < p) :
    Relation.TransGen (taskApplyQ p q body).Waits (Pos.qjob ⟨k, i, j⟩) (Pos.qjob ⟨k, i', j⟩) := by
  obtain ⟨d, rfl⟩ : ∃ d, i' = i + d + 1 := ⟨i' - i - 1, by omega⟩
  exact qwaits_chain hpq ha d hb

theorem taskApplyQ_covered (hpq : q ≤ p) (hb : Within body QJob.reads QJob.writes) :
    Covered (taskApplyQ p q body) := by
  intro x y hxy hcf
  have hlt := rel_of_sublist (applyJobs_pairwise p q) hxy
  obtain ⟨vx, ex⟩ := (mem_applyJobs hpq).1 (hxy.subset (by simp : x ∈ [x, y]))
  obtain ⟨vy, ey⟩ := (mem_applyJobs hpq).1 (hxy.subset (by simp : y ∈ [x, y]))
  generalize x.pos = a at vx ex hlt
  generalize y.pos = b at vy ey hlt
  subst ex ey
  obtain ⟨k, i, j⟩ := a
  obtain ⟨k', i', j'⟩ := b
  obtain ⟨c, h⟩ := conflict_cells hb hcf
  obtain ⟨h1, h2⟩ := q_conflict h
  have vx' := vx
  have vy' := vy
  obtain ⟨x1, x2, x3, x4⟩ := vx
  obtain ⟨y1, y2, y3, y4⟩ := vy
  unfold Pos.lt at hlt
  dsimp only at x1 x2 x3 x4 y1 y2 y3 y4 hlt
  rcases mem_qwrites h1 with e1 | ⟨n1, e1⟩ <;> rcases mem_qwrites h2 with e2 | ⟨n2, e2⟩ <;>
    rw [e1] at e2 <;> cases e2 <;> dsimp only at *
  · exact .single (qwaits_tile hpq vx' vy' (by omega))
  · by_cases e : k = i
    · subst e
      exact qwaits_rows hpq vx' (by omega) y2
    · exact .head (qwaits_tile hpq vx' (k' := i) ⟨le_rfl, x2, y3, y4⟩ (by omega))
        (qwaits_rows hpq ⟨le_rfl, x2, y3, y4⟩ (by omega) y2)
  · omega
  · exact qwaits_rows hpq vx' (by omega) y2

theorem taskBuildQ_covered (hb : Within body QJob.reads QJob.writes) :
    Covered (taskBuildQ p q body) := by
  intro x y hxy hcf
  obtain ⟨c, h⟩ := conflict_cells hb hcf
  obtain ⟨h1, h2⟩ := q_conflict h
  refine .single ⟨hxy, ?_⟩
  have key : ∀ x : QJob, c ∈ x.writes → ∃ l ∈ x.inouts, c = .q l.1 l.2 := by
    intro x hx
    cases x <;> simp only [QJob.writes, Set.mem_insert_iff, Set.mem_singleton_iff] at hx <;>
      simp only [QJob.inouts] <;> aesop
  obtain ⟨l, hl, e⟩ := key x h1
  obtain ⟨l', hl', e'⟩ := key y h2
  rw [e] at e'
  have : l = l' := by
    injection e' with e1 e2
    exact Prod.ext e1 e2
  subst this
  exact ⟨l, .inl ⟨hl, .inr hl'⟩⟩

end

/-- Program order of the second region. -/
def Pos.down (a b : Pos) : Prop := b.k < a.k ∨ (a.k = b.k ∧ (b.i < a.i ∨ (a.i = b.i ∧ a.j < b.j)))

theorem buildJobs_pairwise (p q : Nat) : (buildJobs p q).Pairwise (fun x y => x.pos.down y.pos) := by
  unfold buildJobs
  rw [List.pairwise_flatMap]
  constructor
  · intro k _
    rw [List.pairwise_append]
    refine ⟨?_, ?_, ?_⟩
    · rw [List.pairwise_flatMap]
      constructor
      · intro i hi
        rw [List.pairwise_map]
        refine (upto_pairwise _ _).imp ?_
        intro a b h
        simp only [QJob.pos, Pos.down, true_and]
        omega
      · refine (downto_pairwise _ _).imp ?_
        intro a b h x hx y hy
        simp only [List.mem_map] at hx hy
        obtain ⟨j, -, rfl⟩ := hx
        obtain ⟨j', -, rfl⟩ := hy
        simp only [QJob.pos, Pos.down, true_and]
        omega
    · rw [List.pairwise_map]
      refine (upto_pairwise _ _).imp ?_
      intro a b h
      simp only [QJob.pos, Pos.down, true_and]
      omega
    · intro x hx y hy
      simp only [List.mem_map, List.mem_flatMap, mem_upto, mem_downto] at hx hy
      obtain ⟨i, hi, ⟨j', hj', rfl⟩⟩ := hx
      obtain ⟨j, hj, rfl⟩ := hy
      simp only [QJob.pos, Pos.down, true_and]
      omega
  · refine (downto_pairwise _ _).imp ?_
    intro a b h x hx y hy
    simp only [List.mem_append, List.mem_map, List.mem_flatMap] at hx hy
    have hx' : x.pos.k = a := by
      rcases hx with ⟨_, -, ⟨_, -, rfl⟩⟩ | ⟨_, -, rfl⟩ <;> rfl
    have hy' : y.pos.k = b := by
      rcases hy with ⟨_, -, ⟨_, -, rfl⟩⟩ | ⟨_, -, rfl⟩ <;> rfl
    left
    omega

theorem buildJobs_nodup (p q : Nat) : (buildJobs p q).Nodup :=
  nodup_of_pairwise (buildJobs_pairwise p q) (fun x => by unfold Pos.down; omega)

/-! ### fork-join programs -/

section
variable {V J : Type} {body : J → List (Step Cell V)} {rd wr : J → Set Cell}

/-- Different iterations do not touch what one of them writes. -/
def Apart (rd wr : J → Set Cell) (l : List J) : Prop :=
  l.Nodup ∧ ∀ x ∈ l, ∀ y ∈ l, x ≠ y → ∀ c ∈ wr x, c ∉ rd y ∧ c ∉ wr y

theorem parFor_covered (hb : Within body rd wr) {l : List J} (h : Apart rd wr l) :
    Covered (parFor l body) := by
  intro x y hxy hcf
  exfalso
  have hx : x ∈ l := hxy.subset (by simp : x ∈ [x, y])
  have hy : y ∈ l := hxy.subset (by simp : y ∈ [x, y])
  have hne : x ≠ y := by
    have : List.Nodup [x, y] := h.1.sublist hxy
    simpa using this
  obtain ⟨c, ⟨h1, h2 | h2⟩ | ⟨h1, h2⟩⟩ := conflict_cells hb hcf
  · exact (h.2 x hx y hy hne c h1).1 h2
  · exact (h.2 x hx y hy hne c h1).2 h2
  · exact (h.2 y hy x hx hne.symm c h2).1 h1

theorem sequential_append (l l' : List J) (s : Cell → V) :
    sequential (l ++ l') body s = sequential l' body (sequential l body s) := by
  simp [sequential, List.foldl_append]

theorem runs_sequential [DecidableEq J] (hb : Within body rd wr) {st : Stages J}
    (h : ∀ l ∈ st, Apart rd wr l) {s s' : Cell → V} (hr : Runs body st s s') :
    s' = sequential st.flatten body s := by
  induction hr with
  | nil s => rfl
  | @cons l st s s' s'' h1 _ ih =>
    rw [List.flatten_cons, sequential_append, ih (fun l hl => h l (by simp [hl]))]
    have hl := h l (by simp)
    rw [Region.deterministic (P := parFor l body) hl.1 (parFor_covered hb hl) _ _ h1]
    rfl

/-- Every fork-join program can be executed to the end. -/
theorem runs_exists [DecidableEq J] {st : Stages J} (h : ∀ l ∈ st, Apart rd wr l) (s : Cell → V) :
    ∃ s', Runs body st s s' := by
  induction st generalizing s with
  | nil => exact ⟨s, .nil s⟩
  | cons l st ih =>
    have hl := h l (by simp)
    obtain ⟨c, s', hr, hd⟩ := Region.completes (P := parFor l body) hl.1 s (fun _ => 0) s .refl
    obtain ⟨s'', h'⟩ := ih (fun l hl => h l (by simp [hl])) s'
    exact ⟨s'', .cons ⟨c, hr, hd⟩ h'⟩

end

theorem apart_one {J : Type} (rd wr : J → Set Cell) (x : J) : Apart rd wr [x] := by
  refine ⟨by simp, fun a ha b hb hab => absurd ?_ hab⟩
  simp only [List.mem_singleton] at ha hb
  rw [ha, hb]

/-- A loop whose iterations are numbered injectively. -/
theorem apart_map {J : Type} {rd wr : J → Set Cell} {l : List Nat} (hl : l.Nodup) {f : Nat → J}
    (h : ∀ a ∈ l, ∀ b ∈ l, a ≠ b → f a ≠ f b ∧ ∀ c ∈ wr (f a), c ∉ rd (f b) ∧ c ∉ wr (f b)) :
    Apart rd wr (l.map f) := by
  refine ⟨?_, ?_⟩
  · refine List.Nodup.map_on ?_ hl
    intro a ha b hb e
    by_contra hab
    exact (h a ha b hb hab).1 e
  · intro x hx y hy hxy
    obtain ⟨a, ha, rfl⟩ := List.mem_map.1 hx
    obtain ⟨b, hb, rfl⟩ := List.mem_map.1 hy
    exact (h a ha b hb fun e => hxy (e ▸ rfl)).2

theorem upto_nodup (lo hi : Nat) : (upto lo hi).Nodup :=
  nodup_of_pairwise (upto_pairwise lo hi) (fun x => by omega)

theorem tiledStages_apart (p q : Nat) : ∀ l ∈ tiledStages p q, Apart Job.reads Job.writes l := by
  intro l hl
  simp only [tiledStages, List.mem_flatMap, List.mem_range, List.mem_append, List.mem_cons,
    List.not_mem_nil, or_false, mem_upto] at hl
  obtain ⟨k, -, (rfl | rfl) | ⟨i, hi, rfl | rfl⟩⟩ := hl
  · exact apart_one _ _ _
  · refine apart_map (upto_nodup _ _) ?_
    intro a ha b hb hab
    rw [mem_upto] at ha hb
    refine ⟨by simpa using hab, ?_⟩
    intro c hc
    simp only [Job.writes, Job.reads, tileA, Set.mem_union, Set.mem_insert_iff,
      Set.mem_singleton_iff] at hc ⊢
    rcases hc with rfl | rfl <;> simp <;> omega
  · exact apart_one _ _ _
  · refine apart_map (upto_nodup _ _) ?_
    intro a ha b hb hab
    rw [mem_upto] at ha hb
    refine ⟨by simpa using hab, ?_⟩
    intro c hc
    simp only [Job.writes, Job.reads, tileA, Set.mem_union, Set.mem_insert_iff,
      Set.mem_singleton_iff] at hc ⊢
    rcases hc with (rfl | rfl) | rfl | rfl <;> simp <;> omega

theorem q_apart {k q : Nat} :
    Apart QJob.reads QJob.writes ((upto k q).map (QJob.larfb k)) ∧
    ∀ i, Apart QJob.reads QJob.writes ((upto k q).map fun j => QJob.tpmqrt i j k) := by
  refine ⟨apart_map (upto_nodup _ _) ?_, fun i => apart_map (upto_nodup _ _) ?_⟩
  · intro a ha b hb hab
    refine ⟨by simpa using hab, ?_⟩
    intro c hc
    simp only [QJob.writes, QJob.reads, Set.mem_insert_iff, Set.mem_singleton_iff] at hc ⊢
    subst hc
    simp [hab]
  · intro a ha b hb hab
    refine ⟨by simpa using hab, ?_⟩
    intro c hc
    simp only [QJob.writes, QJob.reads, tileA, Set.mem_union, Set.mem_insert_iff,
      Set.mem_singleton_iff] at hc ⊢
    rcases hc with rfl | rfl <;> simp [hab]

theorem buildStages_apart (p q : Nat) : ∀ l ∈ buildStages p q, Apart QJob.reads QJob.writes l := by
  intro l hl
  simp only [buildStages, List.mem_flatMap, List.mem_append, List.mem_map, List.mem_singleton] at hl
  obtain ⟨k, -, ⟨i, -, rfl⟩ | rfl⟩ := hl
  · exact q_apart.2 i
  · exact q_apart.1

theorem applyStages_apart (p q : Nat) : ∀ l ∈ applyStages p q, Apart QJob.reads QJob.writes l := by
  intro l hl
  simp only [applyStages, List.mem_flatMap, List.mem_append, List.mem_map, List.mem_singleton] at hl
  obtain ⟨k, -, rfl | ⟨i, -, rfl⟩⟩ := hl
  · exact q_apart.1
  · exact q_apart.2 i

theorem blocked_apart (p k q : Nat) :
    Apart (BJob.reads p) (BJob.writes p) ((upto (k + 1) q).map (BJob.applyA k)) ∧
    Apart (BJob.reads p) (BJob.writes p) ((upto k q).map (BJob.applyQ k)) := by
  refine ⟨apart_map (upto_nodup _ _) ?_, apart_map (upto_nodup _ _) ?_⟩
  · intro a ha b hb hab
    rw [mem_upto] at ha hb
    refine ⟨by simpa using hab, ?_⟩
    rintro c ⟨i, h, h1, h2, rfl⟩
    simp only [BJob.writes, BJob.reads, colA, Set.mem_union, Set.mem_singleton_iff, Set.mem_ofPred_eq]
    simp [hab]
    omega
  · intro a ha b hb hab
    refine ⟨by simpa using hab, ?_⟩
    rintro c ⟨i, h1, h2, rfl⟩
    simp only [BJob.writes, BJob.reads, colA, colQ, Set.mem_union, Set.mem_singleton_iff,
      Set.mem_ofPred_eq]
    simp [hab]

theorem blockedStages_apart (p q : Nat) :
    ∀ l ∈ blockedStages q ++ blockedBuildStages q ++ blockedApplyStages q,
      Apart (BJob.reads p) (BJob.writes p) l := by
  intro l hl
  simp only [blockedStages, blockedBuildStages, blockedApplyStages, List.mem_flatMap, List.mem_append,
    List.mem_map, List.mem_cons, List.not_mem_nil, or_false] at hl
  rcases hl with (⟨k, -, rfl | rfl⟩ | ⟨k, -, rfl⟩) | ⟨k, -, rfl⟩
  · exact apart_one _ _ _
  · exact (blocked_apart p k q).1
  · exact (blocked_apart p k q).2
  · exact (blocked_apart p k q).2

theorem mgsStages_apart (p q : Nat) : ∀ l ∈ mgsStages p q, Apart (MJob.reads p) (MJob.writes p) l := by
  intro l hl
  simp only [mgsStages, List.mem_flatMap, List.mem_cons, List.not_mem_nil, or_false] at hl
  obtain ⟨j, -, rfl | rfl | rfl⟩ := hl
  · exact apart_one _ _ _
  · refine apart_map (upto_nodup _ _) ?_
    intro a ha b hb hab
    refine ⟨by simpa using hab, ?_⟩
    rintro c rfl
    simp only [MJob.writes, MJob.reads, colA, colQ, Set.mem_union, Set.mem_singleton_iff,
      Set.mem_ofPred_eq]
    simp [hab]
  · refine ⟨?_, ?_⟩
    · rw [List.nodup_flatMap]
      refine ⟨fun k _ => List.Nodup.map (fun a b e => by injection e) (upto_nodup _ _), ?_⟩
      refine (upto_nodup _ _).imp ?_
      intro a b hab x hx hy
      simp only [List.mem_map] at hx hy
      obtain ⟨_, -, rfl⟩ := hx
      obtain ⟨_, -, e⟩ := hy
      injection e with _ e
      exact hab e.symm
    · intro x hx y hy hxy c hc
      simp only [List.mem_flatMap, List.mem_map] at hx hy
      obtain ⟨k, -, i, -, rfl⟩ := hx
      obtain ⟨k', -, i', -, rfl⟩ := hy
      simp only [MJob.writes, MJob.reads, tileA, Set.mem_union, Set.mem_insert_iff,
        Set.mem_singleton_iff] at hc ⊢
      rcases hc with rfl | rfl <;> simp <;> aesop

theorem flatten_flatMap {α β : Type} (l : List α) (f : α → List (List β)) :
    (l.flatMap f).flatten = l.flatMap fun x => (f x).flatten := by
  induction l with
  | nil => rfl
  | cons a l ih => simp only [List.flatMap_cons, List.flatten_append, ih]

theorem tiledStages_flatten (p q : Nat) : (tiledStages p q).flatten = tiledJobs p q := by
  unfold tiledStages tiledJobs
  rw [flatten_flatMap]
  congr 1
  funext k
  simp [flatten_flatMap]

theorem buildStages_flatten (p q : Nat) : (buildStages p q).flatten = buildJobs p q := by
  unfold buildStages buildJobs
  rw [flatten_flatMap]
  congr 1
  funext k
  simp [List.flatMap]

theorem applyStages_flatten (p q : Nat) : (applyStages p q).flatten = applyJobs p q := by
  unfold applyStages applyJobs
  rw [flatten_flatMap]
  congr 1

end Verif.ParQr
