import Verif.Model.Basic
import Mathlib.Algebra.Group.Defs

/-
Model of `src/util/global_key_value.cpp` and `src/util/timer.cpp`.
-/

namespace Verif

/-- The global map `globalKeyValue` (global_key_value.cpp:8) together with the
process environment, which the library never changes. -/
structure Globals where
  map : String → Option String
  env : String → Option String

/-- Initially the map is empty (global_key_value.cpp:8). -/
def Globals.init (env : String → Option String) : Globals := ⟨fun _ => none, env⟩

/-- `getGlobalValue` (global_key_value.cpp:10-18). -/
def Globals.get (g : Globals) (key : String) : String :=
  match g.map key with
  | none =>
    match g.env key with
    | some v => v
    | none => ""
  | some v => v

/-- `setGlobalValue` (global_key_value.cpp:20-22). -/
def Globals.set (g : Globals) (key value : String) : Globals :=
  { g with map := fun k => if k = key then some value else g.map k }

namespace Timing

/-- The members of class `Timer` (include/FRANK/util/timer.h, private part) except
the map of subtimers, which is part of `State`.  Times are elements of a group
(no rounding). -/
structure Timer (T : Type _) where
  name : String
  parent : Option (List String)
  running : Bool
  startTime : T
  times : List T
  total : T

/-- The timer tree below `GlobalTimer` and `current_timer` (timer.cpp:20-22).  A
timer is addressed by the list of events leading to it from the root: nodes of a
`std::map` keep their address, so pointers to timers (`parent`, `current_timer`)
are represented by these lists.  `timers p = none`: no such timer. -/
structure State (T : Type _) where
  timers : List String → Option (Timer T)
  current : List String

variable {T : Type _} [AddGroup T]

/-- `Timer::Timer(name, parent)` (timer.cpp:73-77); `start_time` is the default
time point. -/
def Timer.new (name : String) (parent : Option (List String)) : Timer T := ⟨name, parent, false, 0, [], 0⟩

/-- The state before `main`: the default constructed root (timer.cpp:66-71) is the
current timer (timer.cpp:20-22). -/
def State.init : State T := ⟨fun p => if p = [] then some (Timer.new "" none) else none, []⟩

/-- Overwriting one timer. -/
def State.put (s : State T) (p : List String) (t : Timer T) : State T :=
  { s with timers := fun q => if q = p then some t else s.timers q }

/-- `Timer::start` (timer.cpp:79-83); `now` is the clock reading. -/
def Timer.start (t : Timer T) (now : T) : Except Err (Timer T) := do
  assertM (!t.running)
  .ok { t with running := true, startTime := now }

/-- `Timer::stop` (timer.cpp:92-100). -/
def Timer.stop (t : Timer T) (now : T) : Except Err (T × Timer T) := do
  assertM t.running
  .ok (now - t.startTime, { t with running := false, times := t.times ++ [now - t.startTime],
                                   total := t.total + (now - t.startTime) })

/-- `Timer::start_subtimer` of the timer at `p` (timer.cpp:85-90). -/
def State.startSubtimer (s : State T) (p : List String) (event : String) (now : T) : Except Err (State T) := do
  let t ← Timer.start ((s.timers (p ++ [event])).getD (Timer.new event (some p))) now
  .ok (s.put (p ++ [event]) t)

/-- Accessing a timer through a pointer; a dangling pointer is undefined
behaviour. -/
def State.deref (s : State T) (p : List String) : Except Err (Timer T) :=
  match s.timers p with
  | none => .error .ub
  | some t => .ok t

/-- `Timer::operator[]` of the timer at `p` (timer.cpp:133-141). -/
def State.sub (s : State T) (p : List String) (event : String) : Except Err (Timer T) := do
  assertM (s.timers (p ++ [event])).isSome
  s.deref (p ++ [event])

/-- The test `getGlobalValue("FRANK_DISABLE_TIMER") != "1"` (timer.cpp:25, 34). -/
def enabled (g : Globals) : Bool := decide (g.get "FRANK_DISABLE_TIMER" ≠ "1")

/-- `timing::start` (timer.cpp:24-30), without the returned reference. -/
def start (g : Globals) (event : String) (now : T) (s : State T) : Except Err (State T) :=
  if enabled g then do
    let _ ← s.deref s.current
    let s ← s.startSubtimer s.current event now
    let _ ← s.sub s.current event
    .ok { s with current := s.current ++ [event] }
  else .ok s

/-- `timing::stop` (timer.cpp:33-43): the returned duration and the new state. -/
def stop (g : Globals) (event : String) (now : T) (s : State T) : Except Err (T × State T) :=
  if enabled g then do
    let t ← s.deref s.current
    assertM (decide (t.name = event))
    let r ← t.stop now
    let s := s.put s.current r.2
    .ok (r.1, { s with current := r.2.parent.getD s.current })
  else .ok (0, s)

/-- `timing::clearTimers` (timer.cpp:45, 102-107).  `current_timer` is left
alone. -/
def clearTimers (s : State T) : Except Err (State T) := do
  let root ← s.deref []
  assertM (!root.running)
  assertM (decide (root.parent = none ∧ root.name = ""))
  .ok { s with timers := fun q => if q = [] then some { root with total := 0 } else none }

/-- `timing::getTotalTime` (timer.cpp:58-60). -/
def getTotalTime (s : State T) (event : String) : Except Err T := do
  let _ ← s.deref s.current
  let t ← s.sub s.current event
  .ok t.total

/-- `timing::getNRuns` (timer.cpp:62-64, 123). -/
def getNRuns (s : State T) (event : String) : Except Err Nat := do
  let _ ← s.deref s.current
  let t ← s.sub s.current event
  .ok t.times.length

/-- `Timer::get_subtimers` of the timer at `p` (timer.cpp:125-131): the map from
event names to total times. -/
def State.getSubtimers (s : State T) (p : List String) (event : String) : Option T :=
  (s.timers (p ++ [event])).map (·.total)

/-- A call of one of the functions of the timing interface, with the clock
reading it observes. -/
inductive Call (T : Type _) where
  | start (event : String) (now : T)
  | stop (event : String) (now : T)
  | clear

/-- Running a single call. -/
def step (g : Globals) (s : State T) : Call T → Except Err (State T)
  | .start e t => start g e t s
  | .stop e t => do
    let r ← stop g e t s
    .ok r.2
  | .clear => clearTimers s

/-- Running a sequence of calls. -/
def run (g : Globals) (s : State T) : List (Call T) → Except Err (State T)
  | [] => .ok s
  | c :: cs => do
    let s ← step g s c
    run g s cs

end Timing

end Verif
