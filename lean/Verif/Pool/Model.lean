import Verif.Common.Outcome
import Verif.Common.SMap
import Mathlib.Data.String.Basic

/-!
# Model of the pool of tasks and features (src/factory/pool.cpp, include/sot/core/pool.hh)

An entity is known by a number. Nothing in the code removes an entity from the pool when it is deleted, so the model
keeps the deleted ones apart: the reference returned for one of them is dangling.
-/

namespace Verif.Pool

/-- The fields `task` and `feature` (include/sot/core/pool.hh:81-85). -/
structure Storage where
  task : SMap String Nat
  feature : SMap String Nat
  deriving DecidableEq, Repr

/-- The static member `instance_` (src/factory/pool.cpp:160) and the entities deleted so far. -/
structure World where
  inst : Option Storage
  deleted : List Nat
  deriving DecidableEq, Repr

/-- At start (src/factory/pool.cpp:158-160). -/
def World.start : World := ⟨none, []⟩

/-- `getInstance` (src/factory/pool.cpp:147-152): the pool, created when there is none. -/
def getInstance (w : World) : Storage := w.inst.getD ⟨[], []⟩

/-- `destroy` (src/factory/pool.cpp:153-156). -/
def destroy (w : World) : World := { w with inst := none }

/-- `getInstance()->registerTask(name, ent)` (src/factory/pool.cpp:40-53). -/
def registerTask (w : World) (name : String) (ent : Nat) : Outcome Unit × World :=
  let s := getInstance w
  match SMap.find name s.task with
  | some _ => (.throw, { w with inst := some s })
  | none => (.ok (), { w with inst := some { s with task := SMap.put name ent s.task } })

/-- `getInstance()->getTask(name)` (src/factory/pool.cpp:55-63): undefined when the reference dangles. -/
def getTask (w : World) (name : String) : Outcome Nat :=
  match SMap.find name (getInstance w).task with
  | none => .throw
  | some e => if e ∈ w.deleted then .ub else .ok e

/-- `getInstance()->registerFeature(name, ent)` (src/factory/pool.cpp:66-80). -/
def registerFeature (w : World) (name : String) (ent : Nat) : Outcome Unit × World :=
  let s := getInstance w
  match SMap.find name s.feature with
  | some _ => (.throw, { w with inst := some s })
  | none => (.ok (), { w with inst := some { s with feature := SMap.put name ent s.feature } })

/-- `getInstance()->getFeature(name)` (src/factory/pool.cpp:82-90). -/
def getFeature (w : World) (name : String) : Outcome Nat :=
  match SMap.find name (getInstance w).feature with
  | none => .throw
  | some e => if e ∈ w.deleted then .ub else .ok e

/-- What can happen to the pool. Lookups change nothing. -/
inductive Op where
  | task (name : String) (ent : Nat)
  | feature (name : String) (ent : Nat)
  /-- An entity is deleted; no destructor of /repo tells the pool. -/
  | delete (ent : Nat)
  | destroy
  deriving DecidableEq, Repr

/-- One operation. -/
def step (w : World) : Op → World
  | .task n e => (registerTask w n e).2
  | .feature n e => (registerFeature w n e).2
  | .delete e => { w with deleted := w.deleted ++ [e] }
  | .destroy => destroy w

/-- A history. -/
def run (h : List Op) : World := h.foldl step World.start

/-! ### Name of the graph -/

/-- `std::string::rfind`. -/
def rfind (c : Char) : List Char → Option Nat
  | [] => none
  | d :: l => match rfind c l with
    | some k => some (k + 1)
    | none => if d = c then some 0 else none

/-- `std::string::substr`: throws when the position is beyond the end. -/
def substr (l : List Char) (pos len : Nat) : Outcome (List Char) :=
  if pos > l.length then .throw else .ok ((l.drop pos).take len)

/-- The name given to the graph by `writeGraph` (src/factory/pool.cpp:92-100). -/
def graphName (file : List Char) : Outcome (List Char) :=
  let tmp := match rfind '.' file with
    | some k => file.take k
    | none => file
  match rfind '/' file with
  | some k => substr tmp k tmp.length
  | none => .ok tmp

end Verif.Pool
