import Verif.Common.Outcome

/-!
# Model of the stack commands of `Sot` (src/sot/sot.cpp:207-322)

Tasks are identified by a value of a type `T` with decidable equality (in the code, by their address).
The dependencies of `controlSOUT` on task signals are kept in a list, as dynamic-graph does:
`addDependency` inserts an element, `removeDependency` removes **all** the elements equal to its
argument (`std::list::remove`). This behaviour of dynamic-graph is an assumption of the model, since its
source is not in /repo.
-/

namespace Verif.Sot

/-- The signals of a task on which the control depends (src/sot/sot.cpp:215-216). -/
inductive Sig (T : Type) where
  | task (t : T)
  | jacobian (t : T)
  deriving DecidableEq, Repr

/-- The part of `class Sot` used by the stack commands (include/sot/core/sot.hh:67-76): the stack in
decreasing priority, the task dependencies of `controlSOUT`, whether `controlSOUT` is marked as to be
recomputed (`setReady`), and `nbJoints`. -/
structure State (T : Type) where
  stack : List T
  deps : List (Sig T)
  ready : Bool
  nbJoints : Nat
  deriving DecidableEq, Repr

variable {T : Type} [DecidableEq T]

/-- Constructor (src/sot/sot.cpp:62-67). -/
def init : State T := ⟨[], [], false, 0⟩

/-- `controlSOUT.addDependency` of the two signals (src/sot/sot.cpp:215-216). -/
def addDeps (deps : List (Sig T)) (t : T) : List (Sig T) := .jacobian t :: .task t :: deps

/-- `controlSOUT.removeDependency` of the two signals (src/sot/sot.cpp:222-223, 254-255). -/
def removeDeps (deps : List (Sig T)) (t : T) : List (Sig T) :=
  deps.filter (fun d => !(d == .task t) && !(d == .jacobian t))

/-- `Sot::push` (src/sot/sot.cpp:210-218). -/
def push (s : State T) (t : T) : Outcome (State T) :=
  if s.nbJoints = 0 then .throw
  else .ok { s with stack := s.stack ++ [t], deps := addDeps s.deps t, ready := true }

/-- `Sot::pop` (src/sot/sot.cpp:219-226); `back()` of an empty list is undefined behaviour. -/
def pop (s : State T) : Outcome (T × State T) :=
  match s.stack.getLast? with
  | none => .ub
  | some t =>
    .ok (t, { s with stack := s.stack.dropLast, deps := removeDeps s.deps t, ready := true })

/-- The search loop shared by `exist`, `remove`, `up`, `down` (src/sot/sot.cpp:229-233, 239-244,
262-267, 285-290): the position of the iterator when the loop ends (the length when it reaches
`stack.end()`). -/
def find (t : T) : List T → Nat
  | [] => 0
  | x :: xs => if x = t then 0 else find t xs + 1

/-- `Sot::exist` (src/sot/sot.cpp:227-235). -/
def exist (s : State T) (t : T) : Bool := find t s.stack < s.stack.length

/-- `Sot::remove` (src/sot/sot.cpp:236-251, 253-257). -/
def remove (s : State T) (t : T) : State T :=
  let it := find t s.stack
  if it = s.stack.length then s
  else { s with stack := s.stack.eraseIdx it, deps := removeDeps s.deps t, ready := true }

/-- `stack.insert(pos, task)` on a list, `pos` given by its index. -/
def insertAt (l : List T) (pos : Nat) (t : T) : List T := l.take pos ++ t :: l.drop pos

/-- `Sot::up` (src/sot/sot.cpp:259-281). Iterators are indices: `pos` is the element before `it`, whose
index is not changed by erasing `it`. -/
def up (s : State T) (t : T) : State T :=
  let it := find t s.stack
  if it = 0 then s
  else if it = s.stack.length then s
  else { s with stack := insertAt (s.stack.eraseIdx it) (it - 1) t, ready := true }

/-- `Sot::down` (src/sot/sot.cpp:282-309). `pos` is the element after `it`; once `it` is erased its index
is `it`. -/
def down (s : State T) (t : T) : State T :=
  let it := find t s.stack
  if it = s.stack.length then s
  else
    let l := s.stack.eraseIdx it
    let pos := it
    if pos = l.length then { s with stack := l ++ [t], ready := true }
    else { s with stack := insertAt l (pos + 1) t, ready := true }

/-- The loop of `Sot::clear` (src/sot/sot.cpp:312-314). -/
def removeAllDeps (deps : List (Sig T)) : List T → List (Sig T)
  | [] => deps
  | t :: ts => removeAllDeps (removeDeps deps t) ts

/-- `Sot::clear` (src/sot/sot.cpp:311-317). -/
def clear (s : State T) : State T :=
  { s with stack := [], deps := removeAllDeps s.deps s.stack, ready := true }

/-- `Sot::defineNbDof` (src/sot/sot.cpp:319-322). -/
def defineNbDof (s : State T) (n : Nat) : State T := { s with nbJoints := n, ready := true }

/-- The stack commands; `compute` stands for a reading of the control signal, which consumes the
"to be recomputed" mark. -/
inductive Cmd (T : Type) where
  | push (t : T)
  | pop
  | remove (t : T)
  | up (t : T)
  | down (t : T)
  | clear
  | setSize (n : Nat)
  | compute
  deriving DecidableEq, Repr

/-- One command (src/sot/sot.cpp:210-322). A throwing `push` leaves the state unchanged. -/
def step (s : State T) : Cmd T → Outcome (State T)
  | .push t => if s.nbJoints = 0 then .ok s else push s t
  | .pop => (pop s).map Prod.snd
  | .remove t => .ok (remove s t)
  | .up t => .ok (up s t)
  | .down t => .ok (down s t)
  | .clear => .ok (clear s)
  | .setSize n => .ok (defineNbDof s n)
  | .compute => .ok { s with ready := false }

/-- A history of commands. -/
def run : State T → List (Cmd T) → Outcome (State T)
  | s, [] => .ok s
  | s, c :: cs => (step s c).bind fun s' => run s' cs

end Verif.Sot
