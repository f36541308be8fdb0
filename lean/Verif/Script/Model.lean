import Verif.Pool.Model
import Verif.Sot.Stack
import Verif.Texts.Model

/-!
# Scripts of commands on stacks of tasks (src/sot/sot-command.h)

A script creates tasks and gives commands to stacks. The commands designate the tasks by their names, which are looked for in the pool.

Simplifications: a task is known by the rank of its creation; the stacks are numbered, and each one exists from the start; a command that throws
is reported and the script goes on. Nothing in the code tells the pool or the stacks that a task is deleted.
-/

namespace Verif.Script

/-- What a script can do. `delete` deletes a task, given by its name. -/
inductive Op where
  | create (n : String)
  | delete (n : String)
  | setSize (k d : Nat)
  | getSize (k : Nat)
  | push (k : Nat) (n : String)
  | remove (k : Nat) (n : String)
  | up (k : Nat) (n : String)
  | down (k : Nat) (n : String)
  | clear (k : Nat)
  | list (k : Nat)
  | display (k : Nat)

/-- What a command answers: an exception, nothing, a number or a text. -/
inductive Res where
  | error
  | done
  | num (d : Nat)
  | text (t : List Char)
  deriving DecidableEq, Repr

/-- The pool, the names of the tasks in the order of their creation, and the stacks. -/
structure World where
  pool : Pool.World
  names : List String
  sots : Nat → Sot.State Nat

/-- At start: no task, the stacks empty (src/sot/sot.cpp:62-67, src/factory/pool.cpp:158-160). -/
def World.start : World := ⟨.start, [], fun _ => Sot.init⟩

/-- The stack `k` becomes `s`. -/
def World.setStack (w : World) (k : Nat) (s : Sot.State Nat) : World := { w with sots := fun j => if j = k then s else w.sots j }

/-- The part common to the commands that designate a task: `PoolStorage::getInstance()->getTask(taskName)`, then the action
(src/sot/sot-command.h:34-43, src/sot/sot-command.h:55-64, src/sot/sot-command.h:76-85, src/sot/sot-command.h:97-106). -/
def World.named (w : World) (n : String) (f : Nat → Outcome (Res × World)) : Outcome (Res × World) :=
  match Pool.getTask w.pool n with
  | .ok e => f e
  | .throw => .ok (.error, w)
  | .ub => .ub

/-- The names of the tasks of a stack, as `getName` gives them: undefined for a task that was deleted
(src/sot/sot-command.h:142-147, src/sot/sot.cpp:651-655). -/
def World.namesOf (w : World) (k : Nat) : Outcome (List (List Char)) :=
  if ∃ e ∈ (w.sots k).stack, e ∈ w.pool.deleted then .ub
  else .ok ((w.sots k).stack.map fun e => (w.names.getD e "").toList)

/-- One command. The constructor of a task registers it, and throws when its name is taken
(src/task/task-abstract.cpp:25-36). The commands are those of src/sot/sot-command.h:27-171, registered in
src/sot/sot.cpp:91-204. -/
def step (w : World) : Op → Outcome (Res × World)
  | .create n =>
    match Pool.registerTask w.pool n w.names.length with
    | (.ok _, p) => .ok (.done, { w with pool := p, names := w.names ++ [n] })
    | (_, p) => .ok (.error, { w with pool := p })
  | .delete n =>
    match SMap.find n (Pool.getInstance w.pool).task with
    | none => .ok (.error, w)
    | some e =>
      if e ∈ w.pool.deleted then .ok (.error, w)
      else .ok (.done, { w with pool := Pool.step w.pool (.delete e) })
  | .setSize k d => .ok (.done, w.setStack k (Sot.defineNbDof (w.sots k) d))
  | .getSize k => .ok (.num (w.sots k).nbJoints, w)
  | .push k n => w.named n fun e =>
    match Sot.push (w.sots k) e with
    | .ok s => .ok (.done, w.setStack k s)
    | .throw => .ok (.error, w)
    | .ub => .ub
  | .remove k n => w.named n fun e => .ok (.done, w.setStack k (Sot.remove (w.sots k) e))
  | .up k n => w.named n fun e => .ok (.done, w.setStack k (Sot.up (w.sots k) e))
  | .down k n => w.named n fun e => .ok (.done, w.setStack k (Sot.down (w.sots k) e))
  | .clear k =>
    if ∃ e ∈ (w.sots k).stack, e ∈ w.pool.deleted then .ub
    else .ok (.done, w.setStack k (Sot.clear (w.sots k)))
  | .list k => (w.namesOf k).map fun l => (.text (Texts.listStack l), w)
  | .display k => (w.namesOf k).map fun l => (.text (Texts.displayStack l), w)

/-- A script: the answers, and what is there afterwards. -/
def run : World → List Op → Outcome (List Res × World)
  | w, [] => .ok ([], w)
  | w, o :: os => (step w o).bind fun r => (run r.2 os).map fun q => (r.1 :: q.1, q.2)

end Verif.Script
