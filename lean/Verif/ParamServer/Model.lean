import Verif.Common.Outcome
import Verif.RobotUtils.TablesModel
import Mathlib.Data.Rat.Floor

/-!
# The parameter server

Simplifications: the robots of the program (src/tools/robot-utils.cpp:505) are an association list; the joint and force tables of a robot are
those of `RobotUtils`. Doubles are rationals. The conversions of a value to and from
its text (Boost's translators) are arguments. Boost's property tree is modelled by its documented behaviour: `put` sets the data of the node
at a path and creates the missing nodes, with empty data, at the end of the children; `get` reads the data of the node at a path and raises
an exception when there is none.
-/

namespace Verif.ParamServer

/-- A property tree. -/
inductive PTree where
  | node (data : String) (children : List (String × PTree))

namespace PTree

/-- The data of the root. -/
def data : PTree → String
  | node d _ => d

/-- The children. -/
def children : PTree → List (String × PTree)
  | node _ cs => cs

/-- A default-constructed tree. -/
def empty : PTree := node "" []

/-- The child with a key: the first one. -/
def child (k : String) : List (String × PTree) → Option PTree
  | [] => none
  | (k', c) :: cs => if k' = k then some c else child k cs

/-- `get` without the conversion. -/
def lookup : List String → PTree → Option String
  | [], t => some t.data
  | k :: ks, t =>
    match child k t.children with
    | some c => lookup ks c
    | none => none

/-- Change the first child with a key, or append a new one. -/
def change (f : PTree → PTree) (k : String) : List (String × PTree) → List (String × PTree)
  | [] => [(k, f empty)]
  | (k', c) :: cs => if k' = k then (k', f c) :: cs else (k', c) :: change f k cs

/-- `put` without the conversion. -/
def store (v : String) : List String → PTree → PTree
  | [], node _ cs => node v cs
  | k :: ks, node d cs => node d (change (store v ks) k cs)

end PTree

/-- The keys of a path text: `path_type apath(parameter_name, '/')` (include/sot/core/robot-utils.hh:248-249, 270). A separator at the end
adds no key. -/
def keys : List Char → List String
  | [] => []
  | c :: cs =>
    if c = '/' then "" :: keys cs
    else go [c] cs
where
  go (acc : List Char) : List Char → List String
    | [] => [String.ofList acc.reverse]
    | c :: cs => if c = '/' then String.ofList acc.reverse :: keys cs else go (c :: acc) cs

/-! ### The tables of joints and force sensors -/

/-- The conversion `(Index)x` of a double to a signed integer of 64 bits: towards zero, undefined when the result does not fit. -/
def toIndex (x : Rat) : Outcome Int :=
  let k : Int := if x < 0 then -⌊-x⌋ else ⌊x⌋
  if -9223372036854775808 ≤ k ∧ k < 9223372036854775808 then .ok k else .ub

/-- The tables of a robot: names and limits of the joints, force sensors and their limits, order of the joints, as integers and as given
(include/sot/core/robot-utils.hh:70-77, 145-164). A limit is a pair: lower, upper. -/
structure Tables where
  names : RobotUtils.Names
  limits : SMap Int (Rat × Rat)
  forces : RobotUtils.Forces
  forceLimits : SMap Int (List Rat × List Rat)
  joints : RobotUtils.Joints
  mapping : List Rat

/-- The tables of a new robot (src/tools/robot-utils.cpp:229). -/
def Tables.new : Tables := ⟨⟨[], []⟩, [], ⟨⟨[], []⟩, none, none, none, none⟩, [], .new, []⟩

/-- The commands that fill the tables. -/
inductive TableCmd where
  | setNameToId (name : String) (id : Rat)
  | setJointLimitsFromId (id lower upper : Rat)
  | setForceLimitsFromId (id : Rat) (lower upper : List Rat)
  | setForceNameToForceId (name : String) (id : Rat)
  | setJointsUrdfToSot (order : List Rat)

/-- What they do on an initialised server: `setNameToId`, `setJointLimitsFromId`, `setForceLimitsFromId`, `setForceNameToForceId`, `setJoints`
(src/tools/parameter-server.cpp:265-317) and the functions of the robot that they call (src/tools/robot-utils.cpp:133-152, 231-250, 281-289). -/
def TableCmd.apply (t : Tables) : TableCmd → Outcome Tables
  | .setNameToId name id => (toIndex id).map fun k => { t with names := RobotUtils.setNameToId t.names name k }
  | .setJointLimitsFromId id lo up => (toIndex id).map fun k => { t with limits := SMap.put k (lo, up) t.limits }
  | .setForceLimitsFromId id lo up => (toIndex id).map fun k => { t with forceLimits := SMap.put k (lo, up) t.forceLimits }
  | .setForceNameToForceId name id => (toIndex id).map fun k => { t with forces := RobotUtils.setForce t.forces name k }
  | .setJointsUrdfToSot order => (RobotUtils.setUrdfToSotVector t.joints order).map fun j => { t with joints := j, mapping := order }

/-- `get_joint_limits_from_id` (src/tools/robot-utils.cpp:236-240); the void limits are zero (include/sot/core/robot-utils.hh:34). -/
def Tables.limitsOf (t : Tables) (id : Int) : Rat × Rat := (SMap.find id t.limits).getD (0, 0)

/-- `get_limits_from_id` of the force sensors (src/tools/robot-utils.cpp:181-195); the void limits are six zeros
(include/sot/core/robot-utils.hh:63). -/
def Tables.forceLimitsOf (t : Tables) (id : Int) : List Rat × List Rat :=
  (SMap.find id t.forceLimits).getD (List.replicate 6 0, List.replicate 6 0)

/-- `isJointInRange` (src/tools/parameter-server.cpp:400-418). -/
def Tables.inRange (t : Tables) (id : Nat) (q : Rat) : Bool :=
  if q < (t.limitsOf id).1 then false else if q > (t.limitsOf id).2 then false else true

/-- `convertJointNameToJointId` (src/tools/parameter-server.cpp:383-398): the identifier as an unsigned integer of 32 bits; `none` when it
answers that the name does not exist. The message then lists the names of the joints, whose number may not be initialised. -/
def Tables.convert (t : Tables) (name : String) : Outcome (Option Nat) :=
  if RobotUtils.getId t.names name < 0 then
    match t.joints.nb with
    | none => .ub
    | some _ => .ok none
  else .ok (some ((RobotUtils.getId t.names name).toNat % 4294967296))

/-- The part of `RobotUtil` that is kept (include/sot/core/robot-utils.hh:115-299). -/
structure Robot where
  tree : PTree
  urdf : String
  imu : String
  leftFoot : String
  rightFoot : String
  leftHand : String
  rightHand : String
  sole : List Rat
  sensor : List Rat
  tables : Tables

/-- `std::make_shared<RobotUtil>()`. -/
def Robot.new : Robot := ⟨.empty, "", "", "", "", "", "", [], [], .new⟩

/-- A parameter server: `m_initSucceeded`, and the robot that `m_robot_util` points to, `none` being the null pointer
(include/sot/core/parameter-server.hh:137-139). -/
structure Server where
  init : Bool
  robot : Option String

/-- After construction: the void robot is a null pointer (src/tools/parameter-server.cpp:55-59, src/tools/robot-utils.cpp:44-46). -/
def Server.new : Server := ⟨false, none⟩

/-- The robots of the program and the servers. -/
structure World (E : Type) where
  robots : List (String × Robot)
  servers : E → Server

variable {E : Type} [DecidableEq E]

/-- The robot with a name. -/
def findRobot (n : String) : List (String × Robot) → Option Robot
  | [] => none
  | (m, r) :: l => if m = n then some r else findRobot n l

/-- Change the robot with a name. -/
def onRobot (n : String) (f : Robot → Robot) : List (String × Robot) → List (String × Robot)
  | [] => []
  | (m, r) :: l => if m = n then (m, f r) :: l else (m, r) :: onRobot n f l

/-- How a command ends. -/
inductive Status where
  | done
  | thrown
  | ub
  deriving DecidableEq

/-- The commands. -/
inductive Cmd where
  | init (dt : Rat) (urdf robot : String)
  | initSimple (dt : Rat)
  | setParameter (name text : String)
  | setImuJointName (name : String)
  | setFootFrameName (foot frame : String)
  | setHandFrameName (hand frame : String)
  | setRightFootSoleXYZ (xyz : List Rat)
  | setRightFootForceSensorXYZ (xyz : List Rat)
  | displayRobotUtil
  | table (c : TableCmd)

/-- Set one server. -/
def World.withServer (w : World E) (e : E) (s : Server) : World E := ⟨w.robots, fun e' => if e' = e then s else w.servers e'⟩

/-- `isNameInRobotUtil`, `createRobotUtil`, `getRobotUtil` as they are used here (src/tools/parameter-server.cpp:229-233, 250-254,
src/tools/robot-utils.cpp:521-544): the robot is created when it is unknown. -/
def ensure (n : String) (l : List (String × Robot)) : List (String × Robot) :=
  match findRobot n l with
  | some _ => l
  | none => l ++ [(n, Robot.new)]

/-- A command that changes the robot of an initialised server: ignored before the initialisation, null dereference when there is no robot. -/
def World.guarded (w : World E) (e : E) (f : Robot → Robot) : World E × Status :=
  if (w.servers e).init = false then (w, .done)
  else match (w.servers e).robot with
    | none => (w, .ub)
    | some n => (⟨onRobot n f w.robots, w.servers⟩, .done)

/-- `setParameter` on a tree (include/sot/core/robot-utils.hh:244-258). When the node is missing and the text ends with a separator, Boost's
`put_child` is given an empty path, which its assertion forbids. -/
def putParameter (name text : String) (t : PTree) : Option PTree :=
  if (t.lookup (keys name.toList)).isNone && name.toList.getLast? == some '/' then none
  else some (t.store text (keys name.toList))

/-- One command: `init` (src/tools/parameter-server.cpp:242-257), `init_simple` (207-240, without the
addition of a command at its end, which is in `Getter.lean`), `setParameter`
(include/sot/core/parameter-server.hh:105-116) with the text of the value, `setRightFootSoleXYZ` and the following ones
(src/tools/parameter-server.cpp:319-378), and the commands of the tables, which a server that is not initialised ignores (265-317). -/
def step (w : World E) (e : E) : Cmd → World E × Status
  | .init dt urdf n =>
    if dt ≤ 0 then (w, .done)
    else (⟨onRobot n (fun r => { r with urdf := urdf }) (ensure n w.robots), (w.withServer e ⟨true, some n⟩).servers⟩, .done)
  | .initSimple dt =>
    if dt ≤ 0 then (w, .done)
    else match w.robots with
      | [(n, _)] => (w.withServer e ⟨true, some n⟩, .done)
      | _ => (w.withServer e ⟨true, (w.servers e).robot⟩, .thrown)
  | .setParameter name text =>
    if (w.servers e).init = false then (w, .done)
    else match (w.servers e).robot with
      | none => (w, .ub)
      | some n =>
        match findRobot n w.robots with
        | none => (w, .ub)
        | some r =>
          match putParameter name text r.tree with
          | none => (w, .ub)
          | some t => (⟨onRobot n (fun r => { r with tree := t }) w.robots, w.servers⟩, .done)
  | .setImuJointName x => w.guarded e fun r => { r with imu := x }
  | .setFootFrameName foot x => w.guarded e fun r =>
      if foot = "Left" then { r with leftFoot := x } else if foot = "Right" then { r with rightFoot := x } else r
  | .setHandFrameName hand x => w.guarded e fun r =>
      if hand = "Left" then { r with leftHand := x } else if hand = "Right" then { r with rightHand := x } else r
  | .setRightFootSoleXYZ x => w.guarded e fun r => { r with sole := x }
  | .setRightFootForceSensorXYZ x => w.guarded e fun r => { r with sensor := x }
  | .displayRobotUtil =>
    match (w.servers e).robot with
    | none => (w, .ub)
    | some _ => (w, .done)
  | .table c =>
    if (w.servers e).init = false then (w, .done)
    else match (w.servers e).robot with
      | none => (w, .ub)
      | some n =>
        match findRobot n w.robots with
        | none => (w, .ub)
        | some r =>
          match c.apply r.tables with
          | .ok t => (⟨onRobot n (fun r => { r with tables := t }) w.robots, w.servers⟩, .done)
          | _ => (w, .ub)

/-- `getParameter` (include/sot/core/parameter-server.hh:118-127, include/sot/core/robot-utils.hh:267-282): `decode` is the conversion of the
text, which fails with an exception. -/
def getParameter {T : Type} (decode : String → Option T) (w : World E) (e : E) (name : String) : Outcome T :=
  if (w.servers e).init = false then .throw
  else match (w.servers e).robot with
    | none => .ub
    | some n =>
      match findRobot n w.robots with
      | none => .ub
      | some r =>
        match (r.tree.lookup (keys name.toList)).bind decode with
        | some v => .ok v
        | none => .throw

/-- The program at start. -/
def World.new : World E := ⟨[], fun _ => .new⟩

/-- Run a list of commands of the servers. -/
def run (w : World E) (l : List (E × Cmd)) : World E := l.foldl (fun w c => (step w c.1 c.2).1) w

end Verif.ParamServer
