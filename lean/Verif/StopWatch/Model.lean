import Verif.Common.SMap
import Mathlib.Algebra.Order.Field.Basic
import Mathlib.Data.Nat.Cast.Basic

/-!
# The stopwatch

Model of `src/utils/stop-watch.cpp` and `include/sot/core/stop-watch.hh`.

Simplifications:

* long doubles are elements of an ordered field, `int stops` is a natural number;
* the readings of the clocks are given with each operation: `now` is what `take_time` reads (`gettimeofday` or `clock`
  according to the mode), `cpu` what `clock()` reads;
* the names are of any ordered type (`std::string` in the code);
* the reports and the messages are left out.
-/

namespace Verif.StopWatch

variable {K F : Type} [LinearOrder K] [Field F] [LinearOrder F]

/-- `StopwatchMode` (`include/sot/core/stop-watch.hh:47-52`). -/
inductive Mode where
  | none | cpuTime | realTime
  deriving DecidableEq

/-- `PerformanceData` (`include/sot/core/stop-watch.hh:214-244`). -/
structure Perf (F : Type) where
  clockStart : F
  total : F
  min : F
  max : F
  last : F
  paused : Bool
  stops : ℕ

/-- The constructor of `PerformanceData` (`include/sot/core/stop-watch.hh:215-222`). -/
def Perf.create : Perf F := ⟨0, 0, 0, 0, 0, false, 0⟩

/-- The attributes of the stopwatch (`include/sot/core/stop-watch.hh:246-254`). -/
structure State (K F : Type) where
  active : Bool
  mode : Mode
  records : SMap K (Perf F)

/-- The constructor (`src/utils/stop-watch.cpp:51-53`). -/
def State.create (mode : Mode) : State K F := ⟨true, mode, []⟩

/-- `take_time`, `none` being the exception (`src/utils/stop-watch.cpp:63-103`). -/
def takeTime (mode : Mode) (now : F) : Option F :=
  match mode with
  | .cpuTime => some now
  | .realTime => some now
  | .none => none

/-- What an operation leaves: the state, and whether an exception left it. -/
structure Result (K F : Type) where
  state : State K F
  threw : Bool

/-- `start` (`src/utils/stop-watch.cpp:105-121`). The record is inserted before the clock is read. -/
def start (s : State K F) (name : K) (now : F) : Result K F :=
  if ¬ s.active then ⟨s, false⟩
  else
    let p := (s.records.find name).getD Perf.create
    match takeTime s.mode now with
    | none => ⟨{ s with records := s.records.put name p }, true⟩
    | some t => ⟨{ s with records := s.records.put name { p with clockStart := t, paused := false } }, false⟩

/-- Lines 137-151 of `src/utils/stop-watch.cpp`. -/
def Perf.record (p : Perf F) (lapse : F) : Perf F :=
  { p with
    stops := p.stops + 1
    last := lapse
    max := if lapse ≥ p.max then lapse else p.max
    min := if lapse ≤ p.min ∨ p.min = 0 then lapse else p.min
    total := p.total + lapse }

/-- `stop` (`src/utils/stop-watch.cpp:123-152`); `cps` is `CLOCKS_PER_SEC`. -/
def stop (cps : F) (s : State K F) (name : K) (now : F) : Result K F :=
  if ¬ s.active then ⟨s, false⟩
  else
    match takeTime s.mode now with
    | none => ⟨s, true⟩
    | some clockEnd =>
      match s.records.find name with
      | none => ⟨s, true⟩
      | some p =>
        if p.clockStart = 0 then ⟨s, false⟩
        else
          let lapse := clockEnd - p.clockStart
          let lapse := if s.mode = .cpuTime then lapse / cps else lapse
          ⟨{ s with records := s.records.put name (p.record lapse) }, false⟩

/-- `pause` (`src/utils/stop-watch.cpp:154-173`): the end is read from `clock()` whatever the mode. -/
def pause (s : State K F) (name : K) (cpu : F) : Result K F :=
  if ¬ s.active then ⟨s, false⟩
  else
    match s.records.find name with
    | none => ⟨s, true⟩
    | some p =>
      if p.clockStart = 0 then ⟨s, false⟩
      else
        let lapse := cpu - p.clockStart
        ⟨{ s with records := s.records.put name { p with last := p.last + lapse, total := p.total + lapse } }, false⟩

/-- `reset` (`src/utils/stop-watch.cpp:196-212`). -/
def reset (s : State K F) (name : K) : Result K F :=
  if ¬ s.active then ⟨s, false⟩
  else
    match s.records.find name with
    | none => ⟨s, true⟩
    | some _ => ⟨{ s with records := s.records.put name Perf.create }, false⟩

/-- The loop of `reset_all` over the records, each of which is reset (`src/utils/stop-watch.cpp:180-182`). -/
def resetLoop (s : State K F) : List K → State K F
  | [] => s
  | name :: l => resetLoop (reset s name).state l

/-- `reset_all` (`src/utils/stop-watch.cpp:175-183`). -/
def resetAll (s : State K F) : Result K F :=
  if ¬ s.active then ⟨s, false⟩ else ⟨resetLoop s (s.records.map (·.1)), false⟩

/-- What is asked of the stopwatch (`include/sot/core/stop-watch.hh:148-207`). -/
inductive Op (K F : Type) where
  | start (name : K) (now : F)
  | stop (name : K) (now : F)
  | pause (name : K) (cpu : F)
  | reset (name : K)
  | resetAll
  | setMode (mode : Mode)
  | turnOn
  | turnOff

/-- One operation (`src/utils/stop-watch.cpp:57`, `:105-183`, `:196-222`). -/
def step (cps : F) (s : State K F) : Op K F → Result K F
  | .start n t => start s n t
  | .stop n t => stop cps s n t
  | .pause n t => pause s n t
  | .reset n => reset s n
  | .resetAll => resetAll s
  | .setMode m => ⟨{ s with mode := m }, false⟩
  | .turnOn => ⟨{ s with active := true }, false⟩
  | .turnOff => ⟨{ s with active := false }, false⟩

/-- Any history of calls (`include/sot/core/stop-watch.hh:148-207`), the exceptions being caught by the
caller. -/
def run (cps : F) (s : State K F) (h : List (Op K F)) : State K F := h.foldl (fun s o => (step cps s o).state) s

/-- `get_total_time` (`src/utils/stop-watch.cpp:265-273`); `none` is the exception, as in the next ones. -/
def getTotal (s : State K F) (name : K) : Option F := (s.records.find name).map (·.total)

/-- `get_average_time` (`src/utils/stop-watch.cpp:275-283`); the inner `none` is the quotient of zero by zero, which is not
a number. -/
def getAverage (s : State K F) (name : K) : Option (Option F) :=
  (s.records.find name).map fun p => if p.stops = 0 then none else some (p.total / (p.stops : F))

/-- `get_min_time` (`src/utils/stop-watch.cpp:285-293`). -/
def getMin (s : State K F) (name : K) : Option F := (s.records.find name).map (·.min)

/-- `get_max_time` (`src/utils/stop-watch.cpp:295-303`). -/
def getMax (s : State K F) (name : K) : Option F := (s.records.find name).map (·.max)

/-- `get_last_time` (`src/utils/stop-watch.cpp:305-313`). -/
def getLast (s : State K F) (name : K) : Option F := (s.records.find name).map (·.last)

/-- `get_time_so_far` (`src/utils/stop-watch.cpp:252-263`). -/
def getTimeSoFar (cps : F) (s : State K F) (name : K) (now : F) : Option F :=
  (s.records.find name).bind fun p =>
    (takeTime s.mode now).map fun t =>
      if s.mode = .cpuTime then (t - p.clockStart) / cps else t - p.clockStart

end Verif.StopWatch
