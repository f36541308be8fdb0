import Verif.Common.Outcome
import Verif.Common.SMap
import Mathlib.Algebra.Order.Ring.Int
import Mathlib.Algebra.Order.Ring.Nat

/-!
# The sequencer

Model of `src/tools/sequencer.cpp` and `include/sot/core/sequencer.hh`.

Simplifications:

* an event is what the sequencer sees of it: its address, its type, its name and the task it holds if any; an operator may
  only push its task on the stack of tasks or remove it from there, which is recorded as a request;
* the times given to `addTask` and `rmTask` are natural numbers less than 2^32;
* the output stream is left out: no method sets it (`src/tools/sequencer.cpp:27`);
* reading from text (`init` of the events) is left out: no method of the sequencer calls it.
-/

namespace Verif.Sequencer

/-- `sotEventType` (`include/sot/core/sequencer.hh:60`). -/
inductive Kind where
  | add | rm | cmd
  deriving DecidableEq

/-- An event (`include/sot/core/sequencer.hh:58-74`, `src/tools/sequencer.cpp:50-161`): its address, its type, what `getName`
returns and the task it holds, by name. -/
structure Event where
  ptr : ℕ
  kind : Kind
  name : String
  task : Option String
  deriving DecidableEq

/-- What an event asks of the stack of tasks. -/
inductive Request where
  | push (task : String)
  | remove (task : String)
  deriving DecidableEq

/-- The pointer to the stack of tasks: not initialised by the constructor (`src/tools/sequencer.cpp:23-30`), or as given to
`setSotRef` (`include/sot/core/sequencer.hh:94`). -/
inductive SotPtr where
  | uninitialised | null | valid
  deriving DecidableEq

/-- `operator()` of the three classes of events (`src/tools/sequencer.cpp:90-96`, `:112-118`, `:152-160`). -/
def Event.exec (sot : SotPtr) (e : Event) : Outcome (List Request) :=
  match e.kind with
  | .cmd => .ok []
  | .add =>
    match sot with
    | .uninitialised => .ub
    | .null => .ok []
    | .valid => match e.task with
      | none => .ok []
      | some t => .ok [.push t]
  | .rm =>
    match sot with
    | .uninitialised => .ub
    | .null => .ok []
    | .valid => match e.task with
      | none => .ok []
      | some t => .ok [.remove t]

/-- The attributes (`include/sot/core/sequencer.hh:77-87`). An entry of a list is a pointer, `none` being the null one. -/
structure State where
  sot : SotPtr
  taskMap : SMap ℕ (List (Option Event))
  timeInit : ℤ
  playMode : Bool

/-- The constructor (`src/tools/sequencer.cpp:23-37`). -/
def State.create : State := ⟨.uninitialised, [], -1, false⟩

/-- `addTask` (`src/tools/sequencer.cpp:167-176`). -/
def addTask (s : State) (e : Option Event) (time : ℕ) : State :=
  match s.taskMap.find time with
  | none => { s with taskMap := s.taskMap.put time [e] }
  | some l => { s with taskMap := s.taskMap.put time (l ++ [e]) }

/-- The loop of `rmTask` (`src/tools/sequencer.cpp:185-190`): the event found, if any. A null pointer is dereferenced. -/
def findEvent (kind : Kind) (name : String) : List (Option Event) → Outcome (Option Event)
  | [] => .ok none
  | none :: _ => .ub
  | some e :: l => if e.kind = kind ∧ e.name = name then .ok (some e) else findEvent kind name l

/-- `tl.remove(p)`: every entry equal to the pointer (`src/tools/sequencer.cpp:187`). -/
def removePtr (ptr : ℕ) (l : List (Option Event)) : List (Option Event) :=
  l.filter fun e => decide (e.map Event.ptr ≠ some ptr)

/-- `rmTask` (`src/tools/sequencer.cpp:179-195`). -/
def rmTask (s : State) (kind : Kind) (name : String) (time : ℕ) : Outcome State :=
  match s.taskMap.find time with
  | none => .ok s
  | some l =>
    (findEvent kind name l).map fun found =>
      let l' := match found with
        | none => l
        | some e => removePtr e.ptr l
      if l'.isEmpty then { s with taskMap := s.taskMap.erase time }
      else { s with taskMap := s.taskMap.put time l' }

/-- The addresses deleted by `clearAll`, in order (`src/tools/sequencer.cpp:200-206`); deleting a null pointer does
nothing. -/
def deleted (s : State) : List ℕ := s.taskMap.flatMap fun p => p.2.filterMap fun e => e.map (·.ptr)

/-- `clearAll` (`src/tools/sequencer.cpp:198-209`). An event deleted twice is undefined behaviour. -/
def clearAll (s : State) : Outcome State :=
  if (deleted s).Nodup then .ok { s with taskMap := [] } else .ub

/-- The loop of `trigger` over the events due (`src/tools/sequencer.cpp:226-235`). -/
def execAll (sot : SotPtr) : List (Option Event) → Outcome (List Request)
  | [] => .ok []
  | none :: l => execAll sot l
  | some e :: l => (e.exec sot).bind fun r => (execAll sot l).map fun r' => r ++ r'

/-- An `int` of 32 bits. -/
def IsInt (x : ℤ) : Prop := -2 ^ 31 ≤ x ∧ x < 2 ^ 31

instance (x : ℤ) : Decidable (IsInt x) := inferInstanceAs (Decidable (_ ∧ _))

/-- `trigger` (`src/tools/sequencer.cpp:214-240`). The difference of two `int` which overflows is undefined; it is then
converted to `unsigned int` to search the map. -/
def trigger (s : State) (time : ℤ) : Outcome (State × List Request) :=
  if ¬ s.playMode then .ok (s, [])
  else
    let s := if s.timeInit = -1 then { s with timeInit := time } else s
    let ref := time - s.timeInit
    if ¬ IsInt ref then .ub
    else
      match s.taskMap.find (ref % 2 ^ 32).toNat with
      | none => .ok (s, [])
      | some l => (execAll s.sot l).map fun r => (s, r)

/-- The public methods (`include/sot/core/sequencer.hh:93-103`). -/
inductive Op where
  | setSotRef (sot : SotPtr)
  | addTask (e : Option Event) (time : ℕ)
  | rmTask (kind : Kind) (name : String) (time : ℕ)
  | clearAll
  | trigger (time : ℤ)

/-- One call (`include/sot/core/sequencer.hh:93-103`): the new state and the requests made of the stack of
tasks. -/
def step (s : State) : Op → Outcome (State × List Request)
  | .setSotRef p => .ok ({ s with sot := p }, [])
  | .addTask e t => .ok (addTask s e t, [])
  | .rmTask k n t => (rmTask s k n t).map fun s => (s, [])
  | .clearAll => (clearAll s).map fun s => (s, [])
  | .trigger t => trigger s t

/-- Any history of calls (`include/sot/core/sequencer.hh:93-103`), and all the requests made. -/
def run : State → List Op → Outcome (State × List Request)
  | s, [] => .ok (s, [])
  | s, o :: h => (step s o).bind fun a => (run a.1 h).map fun b => (b.1, a.2 ++ b.2)

end Verif.Sequencer
