import Verif.Model.Random

namespace Verif
variable {R : Type}

/-- The state of the generator seeded with zero after `k` numbers have been drawn. -/
def Rng.stateAfter (g : Rng R) : Nat → g.State
  | 0 => g.seed 0
  | k + 1 => (g.draw (g.stateAfter k)).2

/-- Number `k`, counted from zero, of the sequence the generator produces when it is seeded
with zero. -/
def Rng.number (g : Rng R) (k : Nat) : R := (g.draw (g.stateAfter k)).1

end Verif
