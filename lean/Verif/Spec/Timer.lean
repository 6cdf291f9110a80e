import Verif.Model.Timer
import Mathlib.Algebra.BigOperators.Group.List.Defs

/-
Specification of timer histories (C40) and of global settings (C41).
-/

namespace Verif

namespace Timing

/-- A well-nested history: a sequence of spans, each with a name, a start time, a
stop time and the spans inside it. -/
inductive History (T : Type _) where
  | done
  | span (name : String) (t0 t1 : T) (inside rest : History T)

/-- The calls making up a well-nested history. -/
def History.calls {T : Type _} : History T → List (Call T)
  | .done => []
  | .span n t0 t1 i r => .start n t0 :: i.calls ++ .stop n t1 :: r.calls

/-- The durations of the spans of a history found at a path of names from the
outside in: `runs [a, b]` lists the spans named `b` directly inside spans named
`a` that are not inside any other span. -/
def History.runs {T : Type _} [Sub T] : History T → List String → List T
  | .done, _ => []
  | .span n t0 t1 i r, p =>
    (match p with
      | [] => []
      | e :: p' => if e = n then (match p' with | [] => [t1 - t0] | _ :: _ => i.runs p') else [])
    ++ r.runs p

/-- Two histories one after the other. -/
def History.append {T : Type _} : History T → History T → History T
  | .done, h => h
  | .span n t0 t1 i r, h => .span n t0 t1 i (r.append h)

end Timing

/-- Value of the last assignment to `key` in a list of assignments (oldest
first). -/
def lastSet : List (String × String) → String → Option String
  | [], _ => none
  | (k, v) :: l, key => (lastSet l key).or (if k = key then some v else none)

end Verif
