import Verif.Model.FileDense
import Verif.Props.File

/-
C42 for the constructor of `Dense` that reads a file.
-/

namespace Verif
variable {R : Type} [Zero R] [Inhabited R]

/-- C42: a dense matrix made from a file with an `N`-by-`M` matrix `F` is the block of `F`
that was asked for. -/
theorem C42_dense {int : List Char → Option Nat} {num : List Char → Option R} {chars : List Char}
    {layout : MatrixLayout} {N M : Nat} {F : Nat → Nat → R} (hfile : IsMatrixFile int num chars layout N M F)
    {m n r c : Nat} (hrm : r + m ≤ N) (hcn : c + n ≤ M) :
    ∃ d, Dense.ofFile int num (some chars) layout m n r c = .ok d ∧ d.rows = m ∧ d.cols = n ∧
      ∀ i < m, ∀ j < n, d.val i j = F (r + i) (c + j) := by
  obtain ⟨A', h, h1, -⟩ := C42_block hfile hrm hcn (fun _ _ => 0)
  exact ⟨⟨m, n, A'⟩, by rw [Dense.ofFile, h, except_bind_ok], rfl, rfl, h1⟩

/-- C42: the same matrix written in the two layouts gives the same dense matrix. -/
theorem C42_layouts_agree {int : List Char → Option Nat} {num : List Char → Option R} {chars chars' : List Char}
    {N M : Nat} {F : Nat → Nat → R} (hf : IsMatrixFile int num chars .rowMajor N M F)
    (hf' : IsMatrixFile int num chars' .columnMajor N M F) {m n r c : Nat} (hrm : r + m ≤ N) (hcn : c + n ≤ M) :
    ∃ d d', Dense.ofFile int num (some chars) .rowMajor m n r c = .ok d ∧
      Dense.ofFile int num (some chars') .columnMajor m n r c = .ok d' ∧ d.rows = d'.rows ∧ d.cols = d'.cols ∧
      ∀ i < d.rows, ∀ j < d.cols, d.val i j = d'.val i j := by
  obtain ⟨d, h, h0, h1, hv⟩ := C42_dense hf hrm hcn
  obtain ⟨d', h', h0', h1', hv'⟩ := C42_dense hf' hrm hcn
  exact ⟨d, d', h, h', by omega, by omega, fun i hi j hj => by
    rw [hv i (by omega) j (by omega), hv' i (by omega) j (by omega)]⟩

/-- A missing file is only reported on the screen: the matrix is zero. -/
theorem C42_dense_no_file (int : List Char → Option Nat) (num : List Char → Option R) (layout : MatrixLayout)
    (m n r c : Nat) :
    ∃ d, Dense.ofFile int num none layout m n r c = .ok d ∧ d.rows = m ∧ d.cols = n ∧ ∀ i j, d.val i j = 0 :=
  ⟨_, rfl, rfl, rfl, fun _ _ => rfl⟩

/-- The lower right 1-by-2 block of the 2-by-3 matrix with rows 1 2 3 and 40 50 60, written
in both layouts. -/
example : (∃ d, Dense.ofFile digits digits (some "2 3\n1 2 3\n40 50 60\n".toList) .rowMajor 1 2 1 1 = .ok d ∧
      d.val 0 0 = 50 ∧ d.val 0 1 = 60) ∧
    ∃ d, Dense.ofFile digits digits (some "2 3\n1 40\n2 50\n3 60\n".toList) .columnMajor 1 2 1 1 = .ok d ∧
      d.val 0 0 = 50 ∧ d.val 0 1 = 60 := by
  constructor
  · exact okAnd_spec (x := Dense.ofFile digits digits (some "2 3\n1 2 3\n40 50 60\n".toList) .rowMajor 1 2 1 1)
      (P := fun d => decide (d.val 0 0 = 50 ∧ d.val 0 1 = 60)) (by decide +kernel) |>.imp fun d h => ⟨h.1, by simpa using h.2⟩
  · exact okAnd_spec (x := Dense.ofFile digits digits (some "2 3\n1 40\n2 50\n3 60\n".toList) .columnMajor 1 2 1 1)
      (P := fun d => decide (d.val 0 0 = 50 ∧ d.val 0 1 = 60)) (by decide +kernel) |>.imp fun d h => ⟨h.1, by simpa using h.2⟩

end Verif
