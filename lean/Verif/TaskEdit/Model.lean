import Verif.Task.Model
import Verif.Flags.Model
import Verif.Depend.Model

/-!
# The list of features of a task, the selection of its controls, and what its outputs declare to depend on

Simplifications: the features are the elements of a type `F`; `find` is the answer of the pool to a name. The dependencies of a signal are
the list that dynamic-graph keeps: `addDependency` adds a signal and `removeDependency` removes all its occurrences (`std::list::remove`).
The outputs of the features are inputs here: whether they are up to date is the matter of `Verif.Depend`.
-/

namespace Verif.TaskEdit

open Verif.MultiBound Verif.Depend
open Verif.Flags (Flags)

variable {F : Type}

/-- The classes of tasks. -/
inductive Kind where
  | plain
  | pd
  | conti
  | unilateral
  deriving DecidableEq

/-- The signals that the outputs of a task can read: those of the features, those of the task, the variation of the error of a PD task (its
output and its input) and the inputs of a unilateral task. -/
inductive Sig (F : Type) where
  | featError (f : F)
  | featErrorDot (f : F)
  | featJacobian (f : F)
  | gain
  | selec
  | error
  | derivative
  | variationOut
  | variationIn
  | referenceSup
  | referenceInf
  | dt
  | position
  deriving DecidableEq

/-- The outputs of a task. -/
inductive Out where
  | error
  | derivative
  | jacobian
  | task
  deriving DecidableEq

/-- The part of a task that its commands change (include/sot/core/task.hh:77-79, 108-113), and the declared dependencies of its outputs. -/
structure State (F : Type) where
  features : List F
  withDerivative : Bool
  selec : Flags
  deps : Out → List (Sig F)

/-- `addDependency`. -/
def addDep (d : Out → List (Sig F)) (o : Out) (s : Sig F) : Out → List (Sig F) := fun o' => if o' = o then s :: d o' else d o'

/-- `removeDependency`. -/
def removeDep [DecidableEq F] (d : Out → List (Sig F)) (o : Out) (s : Sig F) : Out → List (Sig F) :=
  fun o' => if o' = o then (d o').filter (· ≠ s) else d o'

/-- What the outputs of a new task depend on: the constructors of `Task` (src/task/task.cpp:45-58), `TaskPD` (src/task/task-pd.cpp:40-41),
`TaskConti` (src/task/task-conti.cpp:31-39), `TaskUnilateral` (src/task/task-unilateral.cpp:42-48). -/
def newDeps (k : Kind) : Out → List (Sig F)
  | .error => []
  | .derivative => [.error]
  | .jacobian => [.selec]
  | .task =>
    match k with
    | .plain => [.derivative, .error, .gain]
    | .pd => [.variationOut, .derivative, .error, .gain]
    | .conti => [.derivative, .error, .gain]
    | .unilateral => [.position, .dt, .referenceInf, .referenceSup]

/-- The constructor of `Task` (src/task/task.cpp:34-66), that of the derived classes included: all the controls are selected. -/
def new (k : Kind) : State F := ⟨[], false, Flags.ofBool true, newDeps k⟩

/-- `Task::addFeature` (src/task/task.cpp:108-113). -/
def addFeature (s : State F) (f : F) : State F :=
  { s with
    features := s.features ++ [f]
    deps := addDep (addDep (addDep s.deps .jacobian (.featJacobian f)) .error (.featError f)) .derivative (.featErrorDot f) }

/-- `Task::addFeatureFromName` (src/task/task.cpp:115-119): an unknown name is refused by the pool with an exception. -/
def addFromName (find : String → Option F) (s : State F) (name : String) : Outcome (State F) :=
  match find name with
  | some f => .ok (addFeature s f)
  | none => .throw

/-- The loop of `clearFeatureList` (src/task/task.cpp:122-128). -/
def removeDeps [DecidableEq F] : List F → (Out → List (Sig F)) → Out → List (Sig F)
  | [], d => d
  | f :: l, d =>
    removeDeps l (removeDep (removeDep (removeDep d .jacobian (.featJacobian f)) .error (.featError f)) .derivative (.featErrorDot f))

/-- `Task::clearFeatureList` (src/task/task.cpp:121-131). -/
def clear [DecidableEq F] (s : State F) : State F := { s with features := [], deps := removeDeps s.features s.deps }

/-- `Task::addControlSelection` (src/task/task.cpp:134-138). -/
def addControlSelection (s : State F) (act : Flags) : State F := { s with selec := Flags.andAssign s.selec act }

/-- The edits of a task. -/
inductive Cmd where
  | add (name : String)
  | clear
  | setWithDerivative (b : Bool)
  | setSelection (act : Flags)
  | addSelection (act : Flags)
  | clearSelection

/-- One edit (src/task/task.cpp:80-98, 108-142); when it raises an exception, the task is what it was. -/
def step [DecidableEq F] (find : String → Option F) (s : State F) : Cmd → State F
  | .add name =>
    match addFromName find s name with
    | .ok s' => s'
    | _ => s
  | .clear => clear s
  | .setWithDerivative b => { s with withDerivative := b }
  | .setSelection act => { s with selec := act }
  | .addSelection act => addControlSelection s act
  | .clearSelection => { s with selec := Flags.ofBool false }

/-- A history of edits. -/
def run [DecidableEq F] (find : String → Option F) (s : State F) (h : List Cmd) : State F := h.foldl (step find) s

/-! ### What the outputs compute -/

variable {R : Type}

/-- The values of the signals. -/
def Val (R : Type) : Sig F → Type
  | .featError _ => List R
  | .featErrorDot _ => List R
  | .featJacobian _ => Task.DMat R
  | .gain => R
  | .selec => Flags
  | .error => List R
  | .derivative => List (Option R)
  | .variationOut => List R
  | .variationIn => List R
  | .referenceSup => List R
  | .referenceInf => List R
  | .dt => R
  | .position => List R

/-- The error of the task (src/task/task.cpp:148-212), from the content `prev` of the output. -/
def errorOut [Zero R] (s : State F) (prev : List R) : Output (Val R (F := F)) (Outcome (List R)) where
  compute x := Task.computeError prev (s.features.map fun f => x (.featError f))
  deps := s.deps .error

/-- The derivative of the error (src/task/task.cpp:214-230). -/
def derivativeOut (s : State F) : Output (Val R (F := F)) (Outcome (List (Option R))) where
  compute x := Task.computeErrorTimeDerivative (List.length (α := R) (x .error)) (s.features.map fun f => x (.featErrorDot f))
  deps := s.deps .derivative

/-- The jacobian of the task (src/task/task.cpp:252-313). -/
def jacobianOut (s : State F) (prev : Task.DMat R) : Output (Val R (F := F)) (Outcome (Task.DMat R)) where
  compute x := Task.computeJacobian prev (s.features.map fun f => x (.featJacobian f))
  deps := s.deps .jacobian

/-- `Task::computeTaskExponentialDecrease` as a function of the signals that it reads (src/task/task.cpp:232-250). -/
def decrease [Ring R] (s : State F) (x : ∀ i : Sig F, Val R i) : Outcome (List (MultiBound R)) :=
  let err : List R := x .error
  let gain : R := x .gain
  let ref := err.map fun e => ofSingle 0 (-e * gain)
  if s.withDerivative then Task.subtractLoop (x .derivative) ref 0 else .ok ref

/-- The velocity of a task. -/
def taskOut [Ring R] (s : State F) : Output (Val R (F := F)) (Outcome (List (MultiBound R))) where
  compute := decrease s
  deps := s.deps .task

/-- The velocity of a PD task (src/task/task-pd.cpp:70-85): the variation is read from the input. -/
def pdOut [Ring R] (beta : R) (s : State F) : Output (Val R (F := F)) (Outcome (List (MultiBound R))) where
  compute x := (decrease s x).bind fun t => Task.pdLoop beta (x .variationIn) t 0
  deps := s.deps .task

/-- The velocity of a unilateral task (src/task/task-unilateral.cpp:58-76). -/
def unilateralOut [Zero R] [Sub R] [Div R] (s : State F) : Output (Val R (F := F)) (Outcome (List (MultiBound R))) where
  compute x := Task.unilateral (x .referenceInf) (x .referenceSup) (x .dt) (x .position) 0
  deps := s.deps .task

/-! ### Edits between the questions -/

/-- What happens: signals are set, the task is edited, the output is asked for. -/
inductive Event (V : Sig F → Type) where
  | set (who : Sig F → Bool) (x : ∀ i, V i)
  | edit (c : Cmd)
  | ask

/-- One event, for the output `out` of the task, and its answer. The edits of a task do not mark its outputs (src/task/task.cpp:108-142):
the cache stays what it is. -/
def live [DecidableEq F] {V : Sig F → Type} {β : Type} (find : String → Option F) (out : State F → Output V β) (s : State F)
    (c : Cache V β) : Event V → (State F × Cache V β) × List β
  | .set who x => ((s, ((out s).step c (.set who x)).1), [])
  | .edit e => ((step find s e, c), [])
  | .ask => ((s, ((out s).step c .ask).1), ((out s).step c .ask).2)

/-- The state and the cache after a list of events. -/
def after [DecidableEq F] {V : Sig F → Type} {β : Type} (find : String → Option F) (out : State F → Output V β) (s : State F)
    (c : Cache V β) (l : List (Event V)) : State F × Cache V β :=
  l.foldl (fun p e => (live find out p.1 p.2 e).1) (s, c)

end Verif.TaskEdit
