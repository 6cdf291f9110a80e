import Verif.Model.Timer
import Mathlib.Algebra.Order.Floor.Ring
import Mathlib.Algebra.Order.Field.Basic

/-
Model of the reports of `src/util/timer.cpp`: `printTime`, `stopAndPrint` and
`Timer::print_to_depth`.  Times are elements of an ordered field (no rounding).
The layout produced by `print` (print.cpp:185-194: padding, decimals, nothing at all
unless `VERBOSE`) is not modelled: a report is the list of the pairs handed to it.
-/

namespace Verif

namespace Timing

/-- A call of `print(label, value)`: a time (timer.cpp:150) or the percentage of the
subtimers (timer.cpp:172-175). -/
inductive Line (K : Type _) where
  | time (label : String) (v : K)
  | percent (label : String) (v : Int)

/-- Doing `f` for the elements of a list in order, collecting what is printed. -/
def concatM {α β : Type _} (f : α → Except Err (List β)) : List α → Except Err (List β)
  | [] => .ok []
  | a :: l => do
    let x ← f a
    let y ← concatM f l
    .ok (x ++ y)

variable {K : Type _} [Field K] [LinearOrder K] [IsStrictOrderedRing K] [FloorRing K]

/-- `std::round`: halves away from zero. -/
def roundHalf (x : K) : Int := if 0 ≤ x then ⌊x + 1 / 2⌋ else ⌈x - 1 / 2⌉

/-- `int(std::round(sum/total*100))` (timer.cpp:174).  With a zero divisor the quotient
is infinite or not a number; converting that, or a number beyond the range of `int`, is
undefined behaviour. -/
def percentOf (sum total : K) : Except Err Int :=
  if total = 0 then .error .ub
  else if -2147483648 ≤ roundHalf (sum / total * 100) ∧ roundHalf (sum / total * 100) ≤ 2147483647 then
    .ok (roundHalf (sum / total * 100))
  else .error .ub

/-- The private `Timer::print_to_depth` of the timer at `p` (timer.cpp:148-178).
`keys p` are the keys of its map of subtimers, `sort` is `std::sort`, and `at'` is
`at_depth`.  A depth that is not positive is represented by 0: both tests of it are
`depth > 0`. -/
def State.printToDepth (sort : (String × K → String × K → Bool) → List (String × K) → List (String × K))
    (keys : List String → List String) (s : State K) : Nat → Nat → String → List String → Except Err (List (Line K))
  | 0, at', tag, p => do
    let t ← s.deref p
    .ok [.time (if at' = 0 then t.name else tag ++ "--" ++ t.name) t.total]
  | d + 1, at', tag, p => do
    let t ← s.deref p
    let subs ← concatM (fun e => do
      let c ← s.deref (p ++ [e])
      .ok [(e, c.total)]) (keys p)
    let inner ← concatM (fun x => State.printToDepth sort keys s d (at' + 1) (tag ++ " |") (p ++ [x.1]))
      (sort (fun a b => decide (b.2 < a.2)) subs)
    if 0 < subs.length then do
      let q ← percentOf (subs.map (·.2)).sum t.total
      .ok (.time (if at' = 0 then t.name else tag ++ "--" ++ t.name) t.total ::
        (inner ++ [.percent (tag ++ " |_Subcounters [%]") q]))
    else .ok (.time (if at' = 0 then t.name else tag ++ "--" ++ t.name) t.total :: inner)

/-- `timing::printTime` (timer.cpp:54-56) with `Timer::operator[]` (timer.cpp:138-141) and
the public `Timer::print_to_depth` (timer.cpp:143-146). -/
def printTime (sort : (String × K → String × K → Bool) → List (String × K) → List (String × K))
    (keys : List String → List String) (s : State K) (event : String) (depth : Int) : Except Err (List (Line K)) := do
  let _ ← s.deref s.current
  let t ← s.sub s.current event
  assertM (!t.running)
  s.printToDepth sort keys depth.toNat 0 "" (s.current ++ [event])

/-- `timing::stopAndPrint` (timer.cpp:47-52).  The keys are those after the stop, which
does not add or remove timers. -/
def stopAndPrint (sort : (String × K → String × K → Bool) → List (String × K) → List (String × K))
    (keys : List String → List String) (g : Globals) (event : String) (now : K) (depth : Int) (s : State K) :
    Except Err (List (Line K) × State K) :=
  if enabled g then do
    let r ← stop g event now s
    let l ← printTime sort keys r.2 event depth
    .ok (l, r.2)
  else .ok ([], s)

end Timing

end Verif
