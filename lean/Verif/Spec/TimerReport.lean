import Verif.Spec.Timer
import Verif.Model.TimerReport
import Mathlib.Algebra.Order.Group.Unbundled.Abs

/-
Specification of the timing report (C64).
-/

namespace Verif

namespace Timing

/-- `keys p` lists the names of the subtimers of the timer at `p`, each once. -/
def KeysOf {T : Type _} (s : State T) (keys : List String → List String) : Prop :=
  ∀ p, (keys p).Nodup ∧ ∀ e, e ∈ keys p ↔ ∃ t, s.timers (p ++ [e]) = some t

/-- The clock never goes back: the spans of the history follow one another between the
times `lo` and `hi`, and so do the spans inside each of them. -/
def History.Within {T : Type _} [LE T] : History T → T → T → Prop
  | .done, lo, hi => lo ≤ hi
  | .span _ t0 t1 i r, lo, hi => lo ≤ t0 ∧ i.Within t0 t1 ∧ r.Within t1 hi

/-- The indentation `n` levels below the timer asked for. -/
def bars : Nat → String
  | 0 => ""
  | n + 1 => bars n ++ " |"

/-- How the timer reached by the names `q` is labelled in the report on its outermost
timer. -/
def label (q : List String) : String :=
  if q.length ≤ 1 then q.getLastD "" else bars (q.length - 1) ++ "--" ++ q.getLastD ""

/-- The times in a report. -/
def times {K : Type _} : List (Line K) → List (String × K)
  | [] => []
  | .time l v :: r => (l, v) :: times r
  | .percent _ _ :: r => times r

/-- The percentages in a report. -/
def percents {K : Type _} : List (Line K) → List (String × Int)
  | [] => []
  | .time _ _ :: r => percents r
  | .percent l v :: r => (l, v) :: percents r

/-- `v` is the line about how much of the time of the spans at `q` was spent in the spans
directly inside of them: a percentage between 0 and 100, rounded to an integer. -/
def IsShare {K : Type _} [Field K] [LinearOrder K] (F : History K) (q : List String) (v : String × Int) : Prop :=
  v.1 = bars (q.length - 1) ++ " |_Subcounters [%]" ∧ 0 ≤ v.2 ∧ v.2 ≤ 100 ∧
  ∃ es : List String, es.Nodup ∧ (∀ e, e ∈ es ↔ F.runs (q ++ [e]) ≠ []) ∧
    |(v.2 : K) - 100 * ((es.map fun e => (F.runs (q ++ [e])).sum).sum / (F.runs q).sum)| ≤ 1 / 2

/-- The spans of `F` called `event`, and those inside them up to `d` levels deeper, that
have spans inside them all took time in total. -/
def TimeSpent {T : Type _} [AddGroup T] (F : History T) (event : String) (d : Nat) : Prop :=
  ∀ q e, [event] <+: q → q.length ≤ d → F.runs (q ++ [e]) ≠ [] → (F.runs q).sum ≠ 0

/-- A report on `event` down to `d` levels: there is one line for each path of names that
occurred, with the total time of the spans there; no timer comes before the one it is
inside of, nothing else comes between the timers inside the same one, and among the
timers directly inside the same one those with more time come first.  There is one
percentage for each of the timers above the last level that has others inside of it. -/
def IsReport {K : Type _} [Field K] [LinearOrder K] (F : History K) (event : String) (d : Nat) (lines : List (Line K)) :
    Prop :=
  (∃ order : List (List String), order.Nodup ∧
    (∀ q, q ∈ order ↔ [event] <+: q ∧ q.length ≤ d + 1 ∧ F.runs q ≠ []) ∧
    times lines = order.map (fun q => (label q, (F.runs q).sum)) ∧
    order.Pairwise (fun a b => ¬ b <+: a ∧
      ∀ r x y, a = r ++ [x] → b = r ++ [y] → (F.runs b).sum ≤ (F.runs a).sum) ∧
    (∀ a c b r, [a, c, b].Sublist order → r <+: a → r <+: b → r <+: c)) ∧
  ∃ inner : List (List String), inner.Nodup ∧
    (∀ q, q ∈ inner ↔ [event] <+: q ∧ q.length ≤ d ∧ ∃ e, F.runs (q ++ [e]) ≠ []) ∧
    List.Forall₂ (IsShare F) inner (percents lines)

end Timing

end Verif
