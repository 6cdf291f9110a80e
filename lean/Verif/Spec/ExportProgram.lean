import Verif.Spec.Export

/-
Repeated halving (C62).
-/

namespace Verif

/-- First index and number of indices of the part of `0, ..., n-1` that is reached by halving
repeatedly: digit 0 is the first half (the larger one), any other digit the second. -/
def halving (n : Nat) : List Nat → Nat × Nat
  | [] => (0, n)
  | 0 :: p => halving ((n + 1) / 2) p
  | _ :: p => ((n + 1) / 2 + (halving (n / 2) p).1, (halving (n / 2) p).2)

/-- The number with binary digits `p`, most significant first. -/
def binary (p : List Nat) : Nat := p.foldl (fun x d => 2 * x + d) 0

end Verif
