import Verif.Spec.Tree
import Verif.Lemmas.Basic
import Verif.Lemmas.IndexRange
import Mathlib.Data.Nat.Log
import Mathlib.Tactic.Ring
import Mathlib.Tactic.Positivity

namespace Verif
namespace ClusterTree

theorem build_node {fuel : Nat} {isRoot : Bool} {t : NodeInfo} {s : NodeInfo}
    {ch : Nat → Nat → ClusterTree}
    (h : build fuel isRoot t = .ok (.node s ch)) :
    s = t ∧ (isRoot = true ∨ isLeaf t = false) ∧ ∃ f, fuel = f + 1 ∧
      ∀ i < t.br, ∀ j < t.bc, build f false (childInfo t i j) = .ok (ch i j) := by
  cases fuel with
  | zero => simp [build] at h
  | succ f =>
    simp only [build] at h
    split at h
    · rename_i hc
      rw [except_bind_eq_ok] at h
      obtain ⟨g, hg, he⟩ := h
      cases he
      refine ⟨rfl, ?_, f, rfl, fun i hi j hj => collect2_ok hg i hi j hj⟩
      simpa using hc
    · simp at h

theorem build_leaf {fuel : Nat} {isRoot : Bool} {t s : NodeInfo}
    (h : build fuel isRoot t = .ok (.leaf s)) :
    s = t ∧ isRoot = false ∧ isLeaf t = true := by
  cases fuel with
  | zero => simp [build] at h
  | succ f =>
    simp only [build] at h
    split at h
    · rw [except_bind_eq_ok] at h
      obtain ⟨g, hg, he⟩ := h
      cases he
    · rename_i hc
      simp at h hc
      exact ⟨h.symm, hc.1, hc.2⟩

theorem build_info {fuel : Nat} {isRoot : Bool} {t : NodeInfo} {tr : ClusterTree}
    (h : build fuel isRoot t = .ok tr) : tr.info = t := by
  cases tr with
  | leaf s => exact (build_leaf h).1
  | node s ch => exact (build_node h).1

theorem SplitsOk.child {t : NodeInfo} {ch : Nat → Nat → ClusterTree}
    (h : SplitsOk (.node t ch)) {i j : Nat} (hi : i < t.br) (hj : j < t.bc) :
    SplitsOk (ch i j) := by
  intro p s c hp
  exact h ((i, j) :: p) s c (by simp [at?, hi, hj, hp])

theorem partition_splitChild {r : IndexRange} {k : Nat} (hp : IsPartition r (r.split k)) :
    (∀ x, r.Has x → ∃ i, i < k ∧ (r.splitChild k i).Has x) ∧
    (∀ x i j, i < k → j < k → (r.splitChild k i).Has x → (r.splitChild k j).Has x → i = j) ∧
    (∀ i < k, 0 ≤ (r.splitChild k i).n ∧ ∀ x, (r.splitChild k i).Has x → r.Has x) := by
  have key : ∀ i (hi : i < k), (r.split k)[i]'(by simpa using hi) = r.splitChild k i :=
    fun i hi => IndexRange.getElem_split r k i (by simpa using hi)
  have hin : ∀ i < k, 0 ≤ (r.splitChild k i).n ∧ ∀ x, (r.splitChild k i).Has x → r.Has x := by
    intro i hi
    have hm : r.splitChild k i ∈ r.split k := by
      rw [← key i hi]; exact List.getElem_mem _
    exact ⟨hp.nonneg _ hm, hp.inside _ hm⟩
  refine ⟨?_, ?_, hin⟩
  · intro x hx
    obtain ⟨i, ⟨hi, hxi⟩, -⟩ := hp.cover x hx
    simp only [IndexRange.length_split] at hi
    rw [key i hi] at hxi
    exact ⟨i, hi, hxi⟩
  · intro x i j hi hj hxi hxj
    have hx := (hin i hi).2 x hxi
    obtain ⟨l, -, hl⟩ := hp.cover x hx
    have h1 := hl i ⟨by simpa using hi, by rw [key i hi]; exact hxi⟩
    have h2 := hl j ⟨by simpa using hj, by rw [key j hj]; exact hxj⟩
    omega

theorem tiling {fuel : Nat} {isRoot : Bool} {t : NodeInfo} {tr : ClusterTree}
    (h : build fuel isRoot t = .ok tr) (hbr : 1 ≤ t.br) (hbc : 1 ≤ t.bc)
    (hr : 0 ≤ t.rows.n) (hc : 0 ≤ t.cols.n) (hok : SplitsOk tr) :
    (∀ x y, t.rows.Has x → t.cols.Has y →
      ∃! p, ∃ s, tr.at? p = some (.leaf s) ∧ s.rows.Has x ∧ s.cols.Has y) ∧
    (∀ p s, tr.at? p = some s → 0 ≤ s.info.rows.n ∧ 0 ≤ s.info.cols.n ∧
      (∀ x, s.info.rows.Has x → t.rows.Has x) ∧ (∀ y, s.info.cols.Has y → t.cols.Has y)) := by
  induction fuel generalizing isRoot t tr with
  | zero => simp [build] at h
  | succ f ih =>
    cases tr with
    | leaf s =>
      obtain ⟨rfl, -, -⟩ := build_leaf h
      refine ⟨?_, ?_⟩
      · intro x y hx hy
        refine ⟨[], ⟨s, rfl, hx, hy⟩, ?_⟩
        rintro p ⟨s', hp, -⟩
        cases p with
        | nil => rfl
        | cons a p => simp [at?] at hp
      · intro p s' hp
        cases p with
        | nil =>
          simp only [at?, Option.some.injEq] at hp
          subst hp
          exact ⟨hr, hc, fun x hx => hx, fun y hy => hy⟩
        | cons a p => simp [at?] at hp
    | node s ch =>
      obtain ⟨rfl, -, f', hf, hch⟩ := build_node h
      have hf' : f' = f := by omega
      subst hf'
      obtain ⟨hro, hco⟩ := hok [] s ch rfl
      obtain ⟨r1, r2, r3⟩ := partition_splitChild
        (IndexRange.split_isPartition s.rows s.br hr hbr hro)
      obtain ⟨c1, c2, c3⟩ := partition_splitChild
        (IndexRange.split_isPartition s.cols s.bc hc hbc hco)
      have sub : ∀ i j (hi : i < s.br) (hj : j < s.bc), _ := fun i j hi hj =>
        ih (hch i hi j hj) hbr hbc (r3 i hi).1 (c3 j hj).1 (hok.child hi hj)
      refine ⟨?_, ?_⟩
      · intro x y hx hy
        obtain ⟨i, hi, hxi⟩ := r1 x hx
        obtain ⟨j, hj, hyj⟩ := c1 y hy
        obtain ⟨p, ⟨s', hp, hsx, hsy⟩, huniq⟩ := (sub i j hi hj).1 x y hxi hyj
        refine ⟨(i, j) :: p, ⟨s', by simp [at?, hi, hj, hp], hsx, hsy⟩, ?_⟩
        rintro q ⟨s2, hq, hq1, hq2⟩
        cases q with
        | nil => simp [at?] at hq
        | cons a q =>
          obtain ⟨i2, j2⟩ := a
          simp only [at?] at hq
          split at hq
          · rename_i hij
            have hin := (sub i2 j2 hij.1 hij.2).2 q _ hq
            have e1 : i2 = i := r2 x i2 i hij.1 hi (hin.2.2.1 x hq1) hxi
            have e2 : j2 = j := c2 y j2 j hij.2 hj (hin.2.2.2 y hq2) hyj
            subst e1; subst e2
            rw [huniq q ⟨s2, hq, hq1, hq2⟩]
          · simp at hq
      · intro p s' hp
        cases p with
        | nil =>
          simp only [at?, Option.some.injEq] at hp
          subst hp
          exact ⟨hr, hc, fun x hx => hx, fun y hy => hy⟩
        | cons a p =>
          obtain ⟨i, j⟩ := a
          simp only [at?] at hp
          split at hp
          · rename_i hij
            obtain ⟨a1, a2, a3, a4⟩ := (sub i j hij.1 hij.2).2 p s' hp
            exact ⟨a1, a2, fun x hx => (r3 i hij.1).2 x (a3 x hx),
              fun y hy => (c3 j hij.2).2 y (a4 y hy)⟩
          · simp at hp

/-! ### termination -/

theorem ceil_toNat_le (n : Int) (k b m : Nat) (hk : 2 ≤ k) (hbk : b ≤ k)
    (hn : n.toNat ≤ b ^ (m + 1)) : (max 0 (Int.tdiv (n + k - 1) k)).toNat ≤ b ^ m := by
  by_cases h0 : n ≤ 0
  · have : Int.tdiv (n + k - 1) k ≤ 0 := by
      by_cases h1 : 0 ≤ n + k - 1
      · rw [Int.tdiv_eq_ediv_of_nonneg h1, Int.ediv_eq_zero_of_lt h1 (by omega)]
      · have := Int.tdiv_nonneg (a := -(n + k - 1)) (b := k) (by omega) (by omega)
        rw [Int.neg_tdiv] at this
        omega
    have : max 0 (Int.tdiv (n + k - 1) k) = 0 := by omega
    rw [this]; exact Nat.zero_le _
  · obtain ⟨h1, h2, h3⟩ := IndexRange.ceil_bounds n k (by omega) (by omega)
    generalize Int.tdiv (n + k - 1) k = c at *
    have h4 : (max 0 c).toNat = c.toNat := by omega
    rw [h4]
    have hcn : (c.toNat : Int) = c := Int.toNat_of_nonneg h1
    have hnn : (n.toNat : Int) = n := Int.toNat_of_nonneg (by omega)
    have h5 : c.toNat * k ≤ n.toNat + k - 1 := by
      have : ((c.toNat * k : Nat) : Int) ≤ n + k - 1 := by rw [Nat.cast_mul, hcn]; exact h3
      omega
    by_contra hlt
    have h6 : b ^ m + 1 ≤ c.toNat := by omega
    have h7 : (b ^ m + 1) * k ≤ c.toNat * k := Nat.mul_le_mul_right _ h6
    have h8 : b ^ m * b ≤ b ^ m * k := Nat.mul_le_mul_left _ hbk
    have h9 : (b ^ m + 1) * k = b ^ m * k + k := by rw [Nat.add_mul, Nat.one_mul]
    rw [pow_succ] at hn
    omega

/-- With at least two blocks per direction and positive leaf size the recursion
ends after at most `m` levels below a node of size at most `b^m`. -/
theorem build_terminates (m : Nat) (isRoot : Bool) (t : NodeInfo) (b : Nat) (hb : 2 ≤ b)
    (hbr : b ≤ t.br) (hbc : b ≤ t.bc) (hl : 1 ≤ t.nleaf)
    (hr : t.rows.n.toNat ≤ b ^ m) (hc : t.cols.n.toNat ≤ b ^ m) (hroot : isRoot = true → 1 ≤ m) :
    ∃ tr, build (m + 1) isRoot t = .ok tr ∧
      ∀ p s, tr.at? p = some s → p.length ≤ m := by
  induction m generalizing isRoot t with
  | zero =>
    have hr0 : isRoot = false := by
      cases isRoot with
      | false => rfl
      | true => exact absurd (hroot rfl) (by omega)
    have hleaf : isLeaf t = true := by
      simp [isLeaf]; simp at hr hc; omega
    refine ⟨.leaf t, by simp [build, hr0, hleaf], ?_⟩
    intro p s hp
    cases p with
    | nil => simp
    | cons a p => simp [at?] at hp
  | succ m ih =>
    by_cases hcond : (isRoot || !isLeaf t) = true
    · have hch : ∀ i < t.br, ∀ j < t.bc, ∃ x,
          build (m + 1) false (childInfo t i j) = .ok x := by
        intro i hi j hj
        obtain ⟨x, hx, -⟩ := ih false (childInfo t i j) hbr hbc hl
          (by
            have h1 := IndexRange.splitChild_n_le t.rows t.br i (by omega)
            have h2 := ceil_toNat_le t.rows.n t.br b m (by omega) hbr hr
            simp only [childInfo]
            omega)
          (by
            have h1 := IndexRange.splitChild_n_le t.cols t.bc j (by omega)
            have h2 := ceil_toNat_le t.cols.n t.bc b m (by omega) hbc hc
            simp only [childInfo]
            omega)
          (by simp)
        exact ⟨x, hx⟩
      obtain ⟨g, hg⟩ := collect2_exists hch
      have hb' : build (m + 1 + 1) isRoot t = .ok (.node t g) := by
        rw [build]; simp only [hcond, if_true, hg]; rfl
      refine ⟨_, hb', ?_⟩
      intro p s hp
      cases p with
      | nil => simp
      | cons a p =>
        obtain ⟨i, j⟩ := a
        simp only [at?] at hp
        split at hp
        · rename_i hij
          have hx := collect2_ok hg i hij.1 j hij.2
          obtain ⟨x, hx2, hlen⟩ := ih false (childInfo t i j) hbr hbc hl
            (by
              have h1 := IndexRange.splitChild_n_le t.rows t.br i (by omega)
              have h2 := ceil_toNat_le t.rows.n t.br b m (by omega) hbr hr
              simp only [childInfo]
              omega)
            (by
              have h1 := IndexRange.splitChild_n_le t.cols t.bc j (by omega)
              have h2 := ceil_toNat_le t.cols.n t.bc b m (by omega) hbc hc
              simp only [childInfo]
              omega)
            (by simp)
          rw [hx2] at hx
          cases hx
          have := hlen p s hp
          simp only [List.length_cons]; omega
        · simp at hp
    · refine ⟨.leaf t, by rw [build]; simp only [hcond]; rfl, ?_⟩
      intro p s hp
      cases p with
      | nil => simp
      | cons a p => simp [at?] at hp

/-- More budget does not change a successful result. -/
theorem build_mono {f f' : Nat} {isRoot : Bool} {t : NodeInfo} {tr : ClusterTree}
    (h : build f isRoot t = .ok tr) (hle : f ≤ f') : build f' isRoot t = .ok tr := by
  induction f generalizing f' isRoot t tr with
  | zero => simp [build] at h
  | succ f ih =>
    obtain ⟨g, rfl⟩ : ∃ g, f' = g + 1 := ⟨f' - 1, by omega⟩
    rw [build] at h ⊢
    split
    · rename_i hc
      simp only [hc, if_true, except_bind_eq_ok] at h
      obtain ⟨ch, hch, he⟩ := h
      have key : collect2 t.br t.bc (fun i j => build g false (childInfo t i j)) = .ok ch := by
        have h1 := collect2_ok hch
        have : ∀ (n : Nat) (f1 f2 : Nat → Except Err (Nat → ClusterTree)) r,
            (∀ i < n, ∀ x, f1 i = .ok x → f2 i = .ok x) →
            collect n f1 = .ok r → collect n f2 = .ok r := by
          intro n
          induction n with
          | zero => intro f1 f2 r _ h; simpa [collect] using h
          | succ n ihn =>
            intro f1 f2 r hf h
            simp only [collect, except_bind_eq_ok] at h ⊢
            obtain ⟨a, ha, b, hb, hfin⟩ := h
            exact ⟨a, ihn _ _ _ (fun i hi => hf i (by omega)) ha, b, hf n (by omega) _ hb, hfin⟩
        have this2 : ∀ (n : Nat) (f1 f2 : Nat → Except Err ClusterTree) r,
            (∀ i < n, ∀ x, f1 i = .ok x → f2 i = .ok x) →
            collect n f1 = .ok r → collect n f2 = .ok r := by
          intro n
          induction n with
          | zero => intro f1 f2 r _ h; simpa [collect] using h
          | succ n ihn =>
            intro f1 f2 r hf h
            simp only [collect, except_bind_eq_ok] at h ⊢
            obtain ⟨a, ha, b, hb, hfin⟩ := h
            exact ⟨a, ihn _ _ _ (fun i hi => hf i (by omega)) ha, b, hf n (by omega) _ hb, hfin⟩
        refine this _ _ _ _ (fun i hi x hx => ?_) hch
        exact this2 _ _ _ _ (fun j hj y hy => ih hy (by omega)) hx
      simp only [key]
      exact he
    · rename_i hc
      simp only [hc] at h
      exact h

/-- With a single block per direction and a matrix larger than the leaf size the
recursion never ends. -/
theorem build_diverges (fuel : Nat) (isRoot : Bool) (t : NodeInfo)
    (hbr : t.br = 1) (hbc : t.bc = 1) (hl : t.nleaf ≠ 0)
    (hbig : t.nleaf < t.rows.n ∨ t.nleaf < t.cols.n) :
    build fuel isRoot t = .error .fuel := by
  induction fuel generalizing isRoot t with
  | zero => rfl
  | succ f ih =>
    have hleaf : isLeaf t = false := by
      simp [isLeaf, hl]; omega
    rw [build]
    simp only [hleaf, Bool.not_false, Bool.or_true, if_true]
    have hch : build f false (childInfo t 0 0) = .error .fuel := by
      apply ih
      · exact hbr
      · exact hbc
      · exact hl
      · simpa [childInfo, IndexRange.splitChild, hbr, hbc] using hbig
    rw [collect2_error_00 (by omega) (by omega) hch]
    rfl

/-- Leaf size 0: every child of the root is a leaf. -/
theorem build_nleaf_zero (t : NodeInfo) (hl : t.nleaf = 0) :
    ∃ ch, build 2 true t = .ok (.node t ch) ∧
      ∀ i < t.br, ∀ j < t.bc, ch i j = .leaf (childInfo t i j) := by
  have hch : ∀ i < t.br, ∀ j < t.bc, ∃ x, build 1 false (childInfo t i j) = .ok x := by
    intro i _ j _
    exact ⟨.leaf (childInfo t i j), by simp [build, isLeaf, childInfo, hl]⟩
  obtain ⟨g, hg⟩ := collect2_exists hch
  refine ⟨g, by rw [build]; simp only [Bool.true_or, if_true, hg]; rfl, ?_⟩
  intro i hi j hj
  have := collect2_ok hg i hi j hj
  rw [← Except.ok.inj (this.symm.trans (show build 1 false (childInfo t i j) =
    .ok (.leaf (childInfo t i j)) by simp [build, isLeaf, childInfo, hl]))]

/-! ### positions -/

theorem foldl_digits (b : Nat) (p : List Nat) (a : Nat) :
    p.foldl (fun a d => a * b + d) a = a * b ^ p.length + digits b p := by
  induction p generalizing a with
  | nil => simp [digits]
  | cons d p ih =>
    simp only [List.foldl_cons, digits, List.length_cons]
    rw [ih, ih (0 * b + d)]
    rw [pow_succ]
    ring

theorem digits_cons (b d : Nat) (p : List Nat) :
    digits b (d :: p) = d * b ^ p.length + digits b p := by
  rw [digits, List.foldl_cons, foldl_digits]; simp

theorem digits_lt (b : Nat) (p : List Nat) (h : ∀ d ∈ p, d < b) : digits b p < b ^ p.length := by
  induction p with
  | nil => simp [digits]
  | cons d p ih =>
    rw [digits_cons, List.length_cons, pow_succ]
    have h1 := ih (fun d hd => h d (by simp [hd]))
    have h2 : d < b := h d (by simp)
    calc d * b ^ p.length + digits b p < d * b ^ p.length + b ^ p.length := by omega
      _ = (d + 1) * b ^ p.length := by ring
      _ ≤ b * b ^ p.length := Nat.mul_le_mul_right _ (by omega)
      _ = b ^ p.length * b := Nat.mul_comm _ _

theorem digits_inj (b : Nat) (p q : List Nat) (hp : ∀ d ∈ p, d < b) (hq : ∀ d ∈ q, d < b)
    (hlen : p.length = q.length) (h : digits b p = digits b q) : p = q := by
  induction p generalizing q with
  | nil => cases q with
    | nil => rfl
    | cons => simp at hlen
  | cons d p ih =>
    cases q with
    | nil => simp at hlen
    | cons e q =>
      simp only [List.length_cons, Nat.add_right_cancel_iff] at hlen
      rw [digits_cons, digits_cons, hlen] at h
      have h1 := digits_lt b p (fun d hd => hp d (by simp [hd]))
      have h2 := digits_lt b q (fun d hd => hq d (by simp [hd]))
      rw [hlen] at h1
      have hde : d = e := by
        rcases Nat.lt_trichotomy d e with hlt | heq | hgt
        · have : (d + 1) * b ^ q.length ≤ e * b ^ q.length := Nat.mul_le_mul_right _ hlt
          rw [Nat.add_mul] at this; omega
        · exact heq
        · have : (e + 1) * b ^ q.length ≤ d * b ^ q.length := Nat.mul_le_mul_right _ hgt
          rw [Nat.add_mul] at this; omega
      subst hde
      have : p = q := ih q (fun d hd => hp d (by simp [hd])) (fun d hd => hq d (by simp [hd]))
        hlen (by omega)
      rw [this]

theorem at_positions {fuel : Nat} {isRoot : Bool} {t : NodeInfo} {tr : ClusterTree}
    (h : build fuel isRoot t = .ok tr) (p : List (Nat × Nat)) (s : ClusterTree)
    (hp : tr.at? p = some s) :
    s.info.br = t.br ∧ s.info.bc = t.bc ∧ s.info.nleaf = t.nleaf ∧
    s.info.level = t.level + p.length ∧
    (∀ d ∈ p.map Prod.fst, d < t.br) ∧ (∀ d ∈ p.map Prod.snd, d < t.bc) ∧
    s.info.absRow = t.absRow * (t.br : Int) ^ p.length + digits t.br (p.map Prod.fst) ∧
    s.info.absCol = t.absCol * (t.bc : Int) ^ p.length + digits t.bc (p.map Prod.snd) := by
  induction p generalizing fuel isRoot t tr with
  | nil =>
    simp only [at?, Option.some.injEq] at hp
    subst hp
    rw [build_info h]
    simp [digits]
  | cons a p ih =>
    obtain ⟨i, j⟩ := a
    cases tr with
    | leaf s' => simp [at?] at hp
    | node s' ch =>
      obtain ⟨rfl, -, f, rfl, hch⟩ := build_node h
      simp only [at?] at hp
      split at hp
      · rename_i hij
        obtain ⟨h1, h2, h3, h4, h5, h6, h7, h8⟩ := ih (hch i hij.1 j hij.2) hp
        refine ⟨h1, h2, h3, ?_, ?_, ?_, ?_, ?_⟩
        · rw [h4]; simp [childInfo]; omega
        · intro d hd
          simp only [List.map_cons, List.mem_cons] at hd
          rcases hd with rfl | hd
          · exact hij.1
          · exact h5 d hd
        · intro d hd
          simp only [List.map_cons, List.mem_cons] at hd
          rcases hd with rfl | hd
          · exact hij.2
          · exact h6 d hd
        · rw [h7]
          simp only [childInfo, List.map_cons, digits_cons, List.length_cons, List.length_map]
          push_cast
          ring
        · rw [h8]
          simp only [childInfo, List.map_cons, digits_cons, List.length_cons, List.length_map]
          push_cast
          ring
      · simp at hp

theorem splitOk_of_le_two (r : IndexRange) (k : Nat) (hn : 0 ≤ r.n) (hk : 1 ≤ k) (hk2 : k ≤ 2) :
    r.SplitOk k := by
  unfold IndexRange.SplitOk
  have : k = 1 ∨ k = 2 := by omega
  rcases this with rfl | rfl
  · simp; omega
  · have := Int.emod_add_mul_ediv (r.n + ((2:Nat):Int) - 1) ((2:Nat):Int)
    simp at this ⊢; omega

theorem splitOk_of_dvd (r : IndexRange) (k : Nat) (c : Int) (hc : 0 ≤ c) (hk : 1 ≤ k)
    (hn : r.n = k * c) :
    r.SplitOk k ∧ ∀ i : Nat, i < k → (r.splitChild k i).n = c := by
  have e : (r.n + k - 1) / (k : Int) = c := by
    rw [hn, show (k : Int) * c + k - 1 = (k - 1) + c * k by ring,
      Int.add_mul_ediv_right _ _ (by omega), Int.ediv_eq_zero_of_lt (by omega) (by omega)]
    omega
  have h2 : c * ((k:Int) - 1) = k * c - c := by ring
  have hp : 0 ≤ (k : Int) * c := Int.mul_nonneg (by omega) hc
  refine ⟨by unfold IndexRange.SplitOk; rw [e, hn]; omega, ?_⟩
  intro i hi
  have e' : Int.tdiv (r.n + k - 1) (k : Int) = c := by
    rw [Int.tdiv_eq_ediv_of_nonneg (by rw [hn]; omega), e]
  simp only [IndexRange.splitChild, e']
  split
  · rw [h2, hn]; omega
  · rfl

theorem splitsOk_of_le_two {fuel : Nat} {isRoot : Bool} {t : NodeInfo} {tr : ClusterTree}
    (h : build fuel isRoot t = .ok tr) (hbr : 1 ≤ t.br) (hbc : 1 ≤ t.bc)
    (hbr2 : t.br ≤ 2) (hbc2 : t.bc ≤ 2) (hr : 0 ≤ t.rows.n) (hc : 0 ≤ t.cols.n) :
    SplitsOk tr := by
  induction fuel generalizing isRoot t tr with
  | zero => simp [build] at h
  | succ f ih =>
    intro p s ch hp
    cases tr with
    | leaf s' => cases p <;> simp [at?] at hp
    | node s' ch' =>
      obtain ⟨rfl, -, f', hf, hch⟩ := build_node h
      have hf' : f' = f := by omega
      subst hf'
      have ro := splitOk_of_le_two s'.rows s'.br hr hbr hbr2
      have co := splitOk_of_le_two s'.cols s'.bc hc hbc hbc2
      cases p with
      | nil =>
        simp only [at?, Option.some.injEq, ClusterTree.node.injEq] at hp
        obtain ⟨rfl, -⟩ := hp
        exact ⟨ro, co⟩
      | cons a p =>
        obtain ⟨i, j⟩ := a
        simp only [at?] at hp
        split at hp
        · rename_i hij
          have r3 := (partition_splitChild (IndexRange.split_isPartition _ _ hr hbr ro)).2.2 i hij.1
          have c3 := (partition_splitChild (IndexRange.split_isPartition _ _ hc hbc co)).2.2 j hij.2
          exact ih (hch i hij.1 j hij.2) hbr hbc hbr2 hbc2 r3.1 c3.1 p s ch hp
        · simp at hp

theorem splitsOk_of_pow {fuel : Nat} {isRoot : Bool} {t : NodeInfo} {tr : ClusterTree} (L : Nat)
    (h : build fuel isRoot t = .ok tr) (hbr : 1 ≤ t.br) (hbc : 1 ≤ t.bc) (m m' : Int)
    (hm : 0 ≤ m) (hm' : 0 ≤ m')
    (hr : t.rows.n = t.br ^ L * m) (hc : t.cols.n = t.bc ^ L * m')
    (hl : m ≤ t.nleaf) (hl' : m' ≤ t.nleaf) (hroot : isRoot = true → 1 ≤ L) :
    SplitsOk tr := by
  induction L generalizing fuel isRoot t tr with
  | zero =>
    intro p s ch hp
    cases tr with
    | leaf s' => cases p <;> simp [at?] at hp
    | node s' ch' =>
      obtain ⟨rfl, hnl, -⟩ := build_node h
      rcases hnl with hnl | hnl
      · exact absurd (hroot hnl) (by omega)
      · exfalso
        simp [isLeaf] at hnl
        simp at hr hc
        omega
  | succ L ih =>
    intro p s ch hp
    cases tr with
    | leaf s' => cases p <;> simp [at?] at hp
    | node s' ch' =>
      obtain ⟨rfl, -, f', hf, hch⟩ := build_node h
      have ro := splitOk_of_dvd s'.rows s'.br (s'.br ^ L * m)
        (Int.mul_nonneg (by positivity) hm) hbr (by rw [hr, pow_succ]; ring)
      have co := splitOk_of_dvd s'.cols s'.bc (s'.bc ^ L * m')
        (Int.mul_nonneg (by positivity) hm') hbc (by rw [hc, pow_succ]; ring)
      cases p with
      | nil =>
        simp only [at?, Option.some.injEq, ClusterTree.node.injEq] at hp
        obtain ⟨rfl, -⟩ := hp
        exact ⟨ro.1, co.1⟩
      | cons a p =>
        obtain ⟨i, j⟩ := a
        simp only [at?] at hp
        split at hp
        · rename_i hij
          exact ih (hch i hij.1 j hij.2) hbr hbc (ro.2 i hij.1) (co.2 j hij.2) hl hl' (by simp)
            p s ch hp
        · simp at hp

/-- Nodes of a square tree that contain a diagonal entry are diagonal blocks. -/
theorem diag_path {fuel : Nat} {isRoot : Bool} {t : NodeInfo} {tr : ClusterTree}
    (h : build fuel isRoot t = .ok tr) (hbr : 1 ≤ t.br) (hsq : t.rows = t.cols) (hb : t.br = t.bc)
    (hr : 0 ≤ t.rows.n) (hok : SplitsOk tr) (p : List (Nat × Nat)) (s : ClusterTree)
    (hp : tr.at? p = some s) (x : Int) (hx : s.info.rows.Has x) (hy : s.info.cols.Has x) :
    p.map Prod.fst = p.map Prod.snd := by
  induction p generalizing fuel isRoot t tr with
  | nil => rfl
  | cons a p ih =>
    obtain ⟨i, j⟩ := a
    cases tr with
    | leaf s' => simp [at?] at hp
    | node s' ch =>
      obtain ⟨rfl, -, f, rfl, hch⟩ := build_node h
      simp only [at?] at hp
      split at hp
      · rename_i hij
        obtain ⟨ro, co⟩ := hok [] _ _ rfl
        have hpart := IndexRange.split_isPartition _ _ hr hbr ro
        have hr' := (partition_splitChild hpart).2.2 i hij.1
        have hpartc := IndexRange.split_isPartition s'.cols s'.bc (by rw [← hsq]; exact hr)
          (by omega) co
        have hc' := (partition_splitChild hpartc).2.2 j hij.2
        have hin := (tiling (hch i hij.1 j hij.2) hbr (by simp [childInfo]; omega)
          hr'.1 hc'.1 (hok.child hij.1 hij.2)).2 p s hp
        have hxi := hin.2.2.1 x hx
        have hyj := hin.2.2.2 x hy
        have hij' : i = j := by
          refine (partition_splitChild hpart).2.1 x i j hij.1 (by omega) hxi ?_
          have : (childInfo s' i j).cols = s'.rows.splitChild s'.br j := by
            simp only [childInfo, ← hsq, ← hb]
          rw [this] at hyj
          exact hyj
        subst hij'
        have := ih (hch i hij.1 i hij.2) hbr (by simp only [childInfo, ← hsq, ← hb])
          hb hr'.1 (hok.child hij.1 hij.2) hp
        simp [this]
      · simp at hp

end ClusterTree
end Verif
