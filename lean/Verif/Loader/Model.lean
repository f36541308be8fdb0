/-!
# The loader of the stack of tasks, `SotLoader`

Simplifications: the dynamic linker and the loaded library are represented by their answers, which are arguments of the calls, and by the
log of the calls made to them, the last one first. Handles and interfaces are numbers, a new one for each opening and each creation. The
Python interpreter, the options of the command line and the pool of dynamic-graph are left out, except the deregistration of the device.
-/

namespace Verif.Loader

/-- The calls that the loader makes. -/
inductive Ev where
  /-- A library was opened, with this handle. -/
  | opened (h : Nat)
  /-- An interface was created by the function of this handle. -/
  | created (i h : Nat)
  /-- The sensors were given to an interface. -/
  | sensors (i : Nat)
  /-- The control was asked from an interface. -/
  | control (i : Nat)
  /-- An interface was destroyed by the function of this handle. -/
  | destroyed (i h : Nat)
  /-- A handle was closed. -/
  | closed (h : Nat)
  /-- A device was deregistered from the pool. -/
  | deregistered (name : String)
  deriving DecidableEq

/-- The members (include/sot/core/sot-loader.hh:50-73), the next free number and the log. -/
structure State where
  stopped : Bool
  interface : Option Nat
  library : Option Nat
  device : String
  next : Nat
  log : List Ev

/-- The constructor (src/tools/sot-loader.cpp:33-39). -/
def State.new : State := ⟨true, none, none, "", 0, []⟩

/-- `initialization` (src/tools/sot-loader.cpp:70-129): whether the library can be opened, and whether the function that creates the
interface is found. -/
def initialization (opens finds : Bool) (s : State) : State × Bool :=
  if opens then
    let h := s.next
    if finds then
      ({ s with library := some h, interface := some (s.next + 1), next := s.next + 2, log := .created (s.next + 1) h :: .opened h :: s.log }, true)
    else ({ s with library := some h, next := s.next + 1, log := .opened h :: s.log }, false)
  else ({ s with library := none }, false)

/-- The first part of `cleanUp` (src/tools/sot-loader.cpp:134-136). -/
def deregister (s : State) : State := if s.device ≠ "" then { s with log := .deregistered s.device :: s.log } else s

/-- `cleanUp` (src/tools/sot-loader.cpp:131-163): whether the function that destroys the interface is found without error. -/
def cleanUp (finds : Bool) (s : State) : State :=
  match (deregister s).library, (deregister s).interface with
  | some h, some i =>
    if finds then
      { deregister s with interface := none, library := none, log := .closed h :: .destroyed i h :: (deregister s).log }
    else deregister s
  | _, _ => deregister s

/-- What an interface does in one iteration: it can raise an exception at the sensors or at the control. -/
inductive Run where
  | returns
  | throwsSensors
  | throwsControl
  deriving DecidableEq

/-- How a call ends. -/
inductive Status where
  | done
  | thrown
  | ub
  deriving DecidableEq

/-- `oneIteration` (src/tools/sot-loader.cpp:171-184): an exception is thrown again. -/
def oneIteration (r : Run) (s : State) : State × Status :=
  if s.stopped then (s, .done)
  else match s.interface with
    | none => (s, .ub)
    | some i =>
      match r with
      | .returns => ({ s with log := .control i :: .sensors i :: s.log }, .done)
      | .throwsSensors => ({ s with log := .sensors i :: s.log }, .thrown)
      | .throwsControl => ({ s with log := .control i :: .sensors i :: s.log }, .thrown)

/-- The public functions: `startDG`, `stopDG` (include/sot/core/sot-loader.hh:94-97), `loadDeviceInPython`
(src/tools/sot-loader.cpp:186-208). -/
inductive Op where
  | init (opens finds : Bool)
  | cleanUp (finds : Bool)
  | start
  | stop
  | iterate (r : Run)
  | loadDevice (name : String)

/-- One call. -/
def step (s : State) : Op → State × Status
  | .init o f => ((initialization o f s).1, .done)
  | .cleanUp f => (Loader.cleanUp f s, .done)
  | .start => ({ s with stopped := false }, .done)
  | .stop => ({ s with stopped := true }, .done)
  | .iterate r => oneIteration r s
  | .loadDevice n => ({ s with device := n }, .done)

/-- A list of calls. -/
def run (l : List Op) : State := l.foldl (fun s o => (step s o).1) .new

end Verif.Loader
