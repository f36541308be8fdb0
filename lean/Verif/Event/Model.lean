/-!
# Model of `Event` (include/sot/core/event.hh, src/tools/event.cpp)

`int` counters are unbounded integers: the overflow of `timeSinceUp_` after 2^31 evaluations without trigger is
not modelled. The list of signals recomputed on a trigger is not modelled: a trigger is a Boolean.
-/

namespace Verif.Event

/-- Members of `Event` (include/sot/core/event.hh:118-119). -/
structure Ev where
  lastVal : Bool
  timeSinceUp : Int
  repeatAfter : Int
  deriving DecidableEq, Repr

/-- Constructor (include/sot/core/event.hh:49-51): `lastVal_` is a `bool` initialised with 2, that is `true`. -/
def init : Ev := ⟨true, 0, 0⟩

/-- `Event::repeat` (include/sot/core/event.hh:103-105). -/
def setRepeat (e : Ev) (n : Int) : Ev := { e with repeatAfter := n }

/-- `Event::check` (src/tools/event.cpp:11-33) on the value of the condition: the new members, the output
and whether the signals are recomputed. -/
def check (e : Ev) (val : Bool) : Ev × Bool × Bool :=
  let ret := val != e.lastVal
  let up := !e.lastVal && val
  let tsu := if up then 0 else if val then e.timeSinceUp + 1 else e.timeSinceUp
  let trigger := up || (decide (e.repeatAfter > 0) && decide (tsu ≥ e.repeatAfter))
  (⟨if ret then val else e.lastVal, if trigger then 0 else tsu, e.repeatAfter⟩, ret, trigger)

/-- A history of evaluations: the members at the end. -/
def run (e : Ev) (vals : List Bool) : Ev := vals.foldl (fun e v => (check e v).1) e

/-- The output of the last evaluation, and whether it triggered, after earlier evaluations `before`. -/
def outcome (e : Ev) (before : List Bool) (val : Bool) : Bool × Bool := (check (run e before) val).2

end Verif.Event
