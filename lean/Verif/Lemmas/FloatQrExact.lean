import Verif.Lemmas.FloatQrAll

/-!
Tiled QR on dense tiles with exact routines is the model of C33.
-/

namespace Verif
open Finset

/-- The routines that apply reflectors, in exact arithmetic: the formulas of
`Verif/Model/Qr.lean`. -/
def FlQr.ofExact (K : QrKernels ℝ) : FlQr where
  toQrKernels := K
  dlarfb := fun k V T trans C i j => C.val i j - ∑ a ∈ range k, V i a *
    ∑ b ∈ range k, (if trans then T b a else T a b) * ∑ l ∈ range C.rows, V l b * C.val l j
  dtprfb := fun k V T trans A B =>
    let X := fun a j => ∑ b ∈ range k, (if trans then T b a else T a b) *
      (A.val b j + ∑ l ∈ range B.rows, V l b * B.val l j)
    (fun i j => A.val i j - X i j, fun i j => B.val i j - ∑ a ∈ range k, V i a * X a j)

theorem upperPart_tri (T : Dense ℝ) {a b : Nat} (hb : b < T.cols) :
    upperPart T.cols T.val a b = T.tri .upper false a b := by
  simp only [upperPart, Dense.tri]
  by_cases hab : a = b
  · subst hab
    simp [hb]
  · by_cases hlt : a < b
    · rw [if_pos ⟨hlt.le, hb⟩, if_neg hab, if_pos hlt]
    · rw [if_neg (by omega), if_neg hab, if_neg hlt]

theorem upperPart_op (T : Dense ℝ) (trans : Bool) {a b : Nat} (ha : a < T.cols) (hb : b < T.cols) :
    (if trans then upperPart T.cols T.val b a else upperPart T.cols T.val a b) =
      if trans then T.tri .upper false b a else T.tri .upper false a b := by
  rw [upperPart_tri T hb, upperPart_tri T ha]

theorem FlQr.larfb_exact (K : QrKernels ℝ) (V T C : Dense ℝ) (trans : Bool) :
    (FlQr.ofExact K).larfb V T C trans = Dense.larfb V T C trans := by
  unfold FlQr.larfb Dense.larfb
  congr 3
  funext i j
  simp only [FlQr.ofExact]
  congr 1
  refine Finset.sum_congr rfl (fun a ha => ?_)
  congr 1
  refine Finset.sum_congr rfl (fun b hb => ?_)
  rw [upperPart_op T trans (Finset.mem_range.1 ha) (Finset.mem_range.1 hb)]

theorem FlQr.tprfb_exact (K : QrKernels ℝ) (V T A B : Dense ℝ) (trans : Bool) :
    (FlQr.ofExact K).tprfb V T A B trans = Dense.tprfb V T A B trans := by
  have e : ∀ a < T.cols, ∀ j, ∑ b ∈ range T.cols,
      (if trans then upperPart T.cols T.val b a else upperPart T.cols T.val a b) *
        (A.val b j + ∑ l ∈ range B.rows, V.val l b * B.val l j) = ∑ b ∈ range T.cols,
      (if trans then T.tri .upper false b a else T.tri .upper false a b) *
        (A.val b j + ∑ l ∈ range B.rows, V.val l b * B.val l j) := by
    intro a ha j
    exact Finset.sum_congr rfl (fun b hb => by rw [upperPart_op T trans ha (Finset.mem_range.1 hb)])
  unfold FlQr.tprfb Dense.tprfb
  dsimp only
  congr 4
  · funext i j
    by_cases hk : i < T.cols ∧ j < B.cols
    · rw [if_pos hk, if_pos hk]
      simp only [FlQr.ofExact]
      rw [e i hk.1]
    · rw [if_neg hk, if_neg hk]
  · funext i j
    simp only [FlQr.ofExact]
    congr 1
    exact Finset.sum_congr rfl (fun a ha => by rw [e a (Finset.mem_range.1 ha)])

end Verif
