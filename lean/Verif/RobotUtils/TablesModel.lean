import Verif.RobotUtils.Model

/-!
# Robot registry, limits, force sensors and mimic joints (src/tools/robot-utils.cpp)

Model; the properties C75, C76 and C77 are in `Tables.lean`.
-/

namespace Verif.RobotUtils

open SMap

/-! ### Mimic joints -/

/-- A `boost::property_tree::ptree`: its data and its children with their keys, in order. `read_xml` stores the
attributes of an element as the children of a first child `<xmlattr>`. -/
inductive Tree where
  | node (data : String) (children : List (String × Tree))

/-- The key part of the loop body of `go_through` (src/tools/robot-utils.cpp:76-100): the stage of the child. -/
def newStage (stage : Nat) (tag : String) : Nat :=
  if tag = "joint" then 1
  else if tag = "<xmlattr>" then (if stage = 1 then 2 else stage)
  else if tag = "name" then (if stage = 2 then 3 else stage)
  else if tag = "mimic" then stage
  else 0

/-- Members `current_joint_name_` and `mimic_joints_` (include/sot/core/robot-utils.hh:54-55). -/
structure Mimics where
  current : String
  found : List String
  deriving DecidableEq, Repr

mutual
/-- `go_through` (src/tools/robot-utils.cpp:67-106). -/
def goThrough (s : Mimics) (stage : Nat) : Tree → Mimics
  | .node data [] => if stage = 3 then { s with current := data } else s
  | .node _ (c :: cs) => goChildren s stage (c :: cs)
/-- The loop of `go_through` over the children (src/tools/robot-utils.cpp:75-104). -/
def goChildren (s : Mimics) (stage : Nat) : List (String × Tree) → Mimics
  | [] => s
  | (tag, t) :: cs =>
    let s' := if tag = "mimic" ∧ stage = 1 then { s with found := s.found ++ [s.current] } else s
    goChildren (goThrough s' (newStage stage tag) t) stage cs
end

/-- `go_through_full` and `get_mimic_joints` (src/tools/robot-utils.cpp:57-65). -/
def mimicJoints (t : Tree) : List String := (goThrough ⟨"", []⟩ 0 t).found

/-! ### Registry -/

/-- `sgl_map_name_to_robot_util` (src/tools/robot-utils.cpp:505). An object is known by the rank of its creation;
`next` is the rank of the next one. -/
structure Registry where
  robots : SMap String Nat
  next : Nat
  deriving DecidableEq, Repr

/-- `createRobotUtil` (src/tools/robot-utils.cpp:535-544); `none` is the null pointer. -/
def createRobot (r : Registry) (name : String) : Option Nat × Registry :=
  match find name r.robots with
  | none => (some r.next, ⟨put name r.next r.robots, r.next + 1⟩)
  | some _ => (none, r)

/-- `getRobotUtil` (src/tools/robot-utils.cpp:521-526). -/
def getRobot (r : Registry) (name : String) : Option Nat := find name r.robots

/-- `isNameInRobotUtil` (src/tools/robot-utils.cpp:528-533). -/
def isRobot (r : Registry) (name : String) : Bool := (find name r.robots).isSome

/-- `getListOfRobots` (src/tools/robot-utils.cpp:507-519). -/
def listRobots (r : Registry) : List String := r.robots.map Prod.fst

/-- The registry after a history of creations. -/
def robotsAfter (names : List String) : Registry := names.foldl (fun r n => (createRobot r n).2) ⟨[], 0⟩

/-! ### Limits and force sensors -/

/-- `set_joint_limits_for_id` and `get_joint_limits_from_id` (src/tools/robot-utils.cpp:231-244) after a history of
settings: identifier, lower, upper. `(0, 0)` when unknown. -/
def jointLimits {F : Type} [Zero F] (sets : List (Int × F × F)) (id : Int) : F × F :=
  (find id (sets.foldl (fun m s => put s.1 s.2 m) ([] : SMap Int (F × F)))).getD (0, 0)

/-- The tables of `ForceUtil` that concern names, with the four identifiers, uninitialised at first
(include/sot/core/robot-utils.hh:71-77). -/
structure Forces where
  names : Names
  leftHand : Option Int
  rightHand : Option Int
  leftFoot : Option Int
  rightFoot : Option Int

/-- `set_name_to_force_id` (src/tools/robot-utils.cpp:133-145). -/
def setForce (f : Forces) (name : String) (id : Int) : Forces :=
  let f := { f with names := setNameToId f.names name id }
  if name = "rf" then { f with rightFoot := some id }
  else if name = "lf" then { f with leftFoot := some id }
  else if name = "lh" then { f with leftHand := some id }
  else if name = "rh" then { f with rightHand := some id }
  else f

/-- A history of registrations of force sensors. -/
def forcesAfter (regs : List (String × Int)) : Forces :=
  regs.foldl (fun f r => setForce f r.1 r.2) ⟨⟨[], []⟩, none, none, none, none⟩

end Verif.RobotUtils
