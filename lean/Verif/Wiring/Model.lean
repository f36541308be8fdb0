import Verif.MetaTask.Model

/-!
# The graph that the constructors of the meta tasks build

`MetaTask6d`, `MetaTaskKine6d`, `MetaTaskKine6dRel`, `MetaTaskCom`, `MetaTaskKineCom`, `MetaTaskPosture` and `MetaTaskKinePosture`
(src/dynamic_graph/sot/core/meta_task_6d.py, meta_tasks_kine.py, meta_tasks_kine_relative.py, meta_tasks.py, meta_task_posture.py):
which entities they create, under which names, and what they plug.

Simplifications: a Python exception is `throw`, and what the statements before it did is not kept. Only the entities that the meta tasks
create are in the graph; the robot is known by the names of its signals. The values of the references are not kept. Assumption on
dynamic-graph-python, which is not part of the repository: creating an entity under a name in use gives the existing entity when it has
the same class, and raises an exception when it has another.
-/

namespace Verif.Wiring

/-- Names of entities and of signals of the robot. -/
abbrev Name := List Char

/-- The classes of the entities (src/dynamic_graph/sot/core/meta_task_6d.py:3-6, meta_tasks.py:5, meta_tasks_kine_relative.py:3). -/
inductive Cls where
  | modifier
  | point6d
  | point6dRelative
  | generic
  | task
  | gain
  deriving DecidableEq

/-- The inputs that are plugged (src/dynamic_graph/sot/core/meta_task_6d.py:42-45, 63-67, meta_tasks.py:22-23,
meta_tasks_kine_relative.py:42-43). -/
inductive Input where
  | positionIN
  | jacobianIN
  | position
  | jq
  | positionRef
  | jqRef
  | errorIN
  | error
  | controlGain
  deriving DecidableEq

/-- What an input is plugged on: a signal of the robot, or an output of an entity. -/
inductive Source where
  | robot (signal : Name)
  | position (modifier : Name)
  | jacobian (modifier : Name)
  | error (task : Name)
  | gain (gain : Name)
  deriving DecidableEq

/-- The graph. -/
structure Graph (T : Type) where
  robot : List Name
  classOf : Name → Option Cls
  plugged : Name → Input → Option Source
  reference : Name → Option Name
  features : Name → List Name
  activ : Name → Bool
  transformation : Name → Option T
  gain : Name → Option (ℚ × ℚ × ℚ)
  selec : Name → Option Name

variable {T : Type}

/-- No entity yet. -/
def Graph.empty (robot : List Name) : Graph T :=
  ⟨robot, fun _ => none, fun _ _ => none, fun _ => none, fun _ => [], fun _ => true, fun _ => none, fun _ => none, fun _ => none⟩

/-- A function changed at one point. -/
def upd {A B : Type} [DecidableEq A] (f : A → B) (a : A) (b : B) : A → B := fun x => if x = a then b else f x

/-- The call of the class of an entity: see the assumption in the header. -/
def Graph.create (g : Graph T) (c : Cls) (e : Name) : Outcome (Graph T) :=
  match g.classOf e with
  | none => .ok { g with classOf := upd g.classOf e (some c) }
  | some c' => if c' = c then .ok g else .throw

/-- `plug`. -/
def Graph.plug (g : Graph T) (s : Source) (e : Name) (i : Input) : Graph T :=
  { g with plugged := upd g.plugged e (upd (g.plugged e) i (some s)) }

/-- `dyn.signal(name)`, plugged on an input: the signal must exist. -/
def Graph.plugRobot (g : Graph T) (s : Name) (e : Name) (i : Input) : Outcome (Graph T) :=
  if g.robot.any (fun x => MetaTask.lastPart x == s) then .ok (g.plug (.robot s) e i) else .throw

/-- The kinds of meta tasks; `MetaTask6d` and `MetaTaskKine6d` do the same (src/dynamic_graph/sot/core/meta_tasks_kine.py:12-30). -/
inductive Kind where
  | point
  | relative
  | com
  | posture
  deriving DecidableEq

/-- A meta task of a script: its class, its name and the names of its operational points. -/
structure Meta where
  kind : Kind
  name : Name
  op : Name
  base : Name
  deriving DecidableEq

/-- `"opmodif" + name` (src/dynamic_graph/sot/core/meta_task_6d.py:41). -/
def Meta.modif (m : Meta) : Name := ['o', 'p', 'm', 'o', 'd', 'i', 'f'] ++ m.name

/-- `"opmodifBase" + name` (src/dynamic_graph/sot/core/meta_tasks_kine_relative.py:21). -/
def Meta.modifBase (m : Meta) : Name := ['o', 'p', 'm', 'o', 'd', 'i', 'f', 'B', 'a', 's', 'e'] ++ m.name

/-- `"feature" + name` (src/dynamic_graph/sot/core/meta_task_6d.py:49, meta_tasks.py:18, meta_task_posture.py:40) or `"featureRel" + name`
(src/dynamic_graph/sot/core/meta_tasks_kine_relative.py:33). -/
def Meta.feature (m : Meta) : Name :=
  match m.kind with
  | .relative => ['f', 'e', 'a', 't', 'u', 'r', 'e', 'R', 'e', 'l'] ++ m.name
  | _ => ['f', 'e', 'a', 't', 'u', 'r', 'e'] ++ m.name

/-- `"feature" + name + "_ref"` (src/dynamic_graph/sot/core/meta_task_6d.py:50), `"featureRel" + name + "_ref"`
(src/dynamic_graph/sot/core/meta_tasks_kine_relative.py:34) or `"featureDes" + name` (src/dynamic_graph/sot/core/meta_tasks.py:19,
meta_task_posture.py:41). -/
def Meta.featureDes (m : Meta) : Name :=
  match m.kind with
  | .point | .relative => m.feature ++ ['_', 'r', 'e', 'f']
  | .com | .posture => ['f', 'e', 'a', 't', 'u', 'r', 'e', 'D', 'e', 's'] ++ m.name

/-- `"task" + name` (src/dynamic_graph/sot/core/meta_task_6d.py:55, meta_tasks_kine.py:36, meta_task_posture.py:92). -/
def Meta.task (m : Meta) : Name := ['t', 'a', 's', 'k'] ++ m.name

/-- `"gain" + name` (src/dynamic_graph/sot/core/meta_task_6d.py:58, meta_tasks.py:20, meta_task_posture.py:42). -/
def Meta.gain (m : Meta) : Name := ['g', 'a', 'i', 'n'] ++ m.name

/-- `createOpPointModif` (src/dynamic_graph/sot/core/meta_task_6d.py:40-46) and `createOpPointModifBase`
(src/dynamic_graph/sot/core/meta_tasks_kine_relative.py:20-30), for the operational point `op`. -/
def Graph.createModif (g : Graph T) (e op : Name) : Outcome (Graph T) :=
  (g.create .modifier e).bind fun g => (g.plugRobot op e .positionIN).bind fun g => (g.plugRobot ('J' :: op) e .jacobianIN).map fun g =>
    { g with activ := upd g.activ e false }

/-- `createFeatures` (src/dynamic_graph/sot/core/meta_task_6d.py:48-52, meta_tasks_kine_relative.py:32-36). -/
def Graph.createFeatures (g : Graph T) (m : Meta) (c : Cls) : Outcome (Graph T) :=
  (g.create c m.feature).bind fun g => (g.create c m.featureDes).map fun g =>
    { g with selec := upd g.selec m.feature (some ['1', '1', '1', '1', '1', '1']) }

/-- `createTask` and `createGain` (src/dynamic_graph/sot/core/meta_task_6d.py:54-59, meta_tasks_kine.py:13-18). -/
def Graph.createTaskGain (g : Graph T) (m : Meta) : Outcome (Graph T) :=
  (g.create .task m.task).bind fun g => (g.create .gain m.gain).map fun g =>
    { g with gain := upd g.gain m.gain (some (1 / 10, 1 / 10, 125000)) }

/-- `setReference` (src/dynamic_graph/sot/core/meta_task_6d.py:62). -/
def Graph.setReference (g : Graph T) (m : Meta) : Graph T := { g with reference := upd g.reference m.feature (some m.featureDes) }

/-- The last lines of `plugEverything` (src/dynamic_graph/sot/core/meta_task_6d.py:65-67, meta_tasks_kine_relative.py:44-46) and `plugTask`
(src/dynamic_graph/sot/core/meta_tasks.py:26-29, meta_task_posture.py:48-51). The task adds the feature to its list whether or not it is
there (src/task/task.cpp:108-114). -/
def Graph.plugTask (g : Graph T) (m : Meta) : Graph T :=
  let g := { g with features := upd g.features m.task (g.features m.task ++ [m.feature]) }
  (g.plug (.error m.task) m.gain .error).plug (.gain m.gain) m.task .controlGain

/-- The constructor of `MetaTask6d` (src/dynamic_graph/sot/core/meta_task_6d.py:73-81) with `plugEverything` (61-67). -/
def makePoint (create : List Name → Name → Outcome (List Name)) (g : Graph T) (m : Meta) : Outcome (Graph T) :=
  (MetaTask.createOpPoint create g.robot m.op).bind fun rb =>
  ({ g with robot := rb }.createModif m.modif m.op).bind fun g =>
  (g.createFeatures m .point6d).bind fun g =>
  (g.createTaskGain m).bind fun g =>
  ((g.setReference m).plugRobot m.op m.feature .position).bind fun g =>
  (g.plugRobot ('J' :: m.op) m.feature .jq).map fun g => Graph.plugTask g m

/-- The constructor of `MetaTaskKine6dRel` (src/dynamic_graph/sot/core/meta_tasks_kine_relative.py:52-70) with `plugEverything` (38-46). -/
def makeRelative (create : List Name → Name → Outcome (List Name)) (g : Graph T) (m : Meta) : Outcome (Graph T) :=
  (MetaTask.createOpPoint create g.robot m.op).bind fun rb =>
  (MetaTask.createOpPoint create rb m.base).bind fun rb =>
  ({ g with robot := rb }.createModif m.modif m.op).bind fun g =>
  (g.createModif m.modifBase m.base).bind fun g =>
  (g.createFeatures m .point6dRelative).bind fun g =>
  (g.createTaskGain m).bind fun g =>
  ((g.setReference m).plugRobot m.op m.feature .position).bind fun g =>
  (g.plugRobot ('J' :: m.op) m.feature .jq).bind fun g =>
  (g.plugRobot m.base m.feature .positionRef).bind fun g =>
  (g.plugRobot ('J' :: m.base) m.feature .jqRef).map fun g => Graph.plugTask g m

/-- The entities of `MetaTaskCom` and `MetaTaskPosture` (src/dynamic_graph/sot/core/meta_tasks.py:18-20, meta_task_posture.py:40-42). -/
def Graph.createGeneric (g : Graph T) (m : Meta) : Outcome (Graph T) :=
  (g.create .generic m.feature).bind fun g => (g.create .generic m.featureDes).bind fun g => g.create .gain m.gain

/-- The constructor of `MetaTaskKineCom` (src/dynamic_graph/sot/core/meta_tasks_kine.py:33-37, meta_tasks.py:13-24). -/
def makeCom (g : Graph T) (m : Meta) : Outcome (Graph T) :=
  (g.createGeneric m).bind fun g =>
  (g.plugRobot ['c', 'o', 'm'] m.feature .errorIN).bind fun g =>
  (g.plugRobot ['J', 'c', 'o', 'm'] m.feature .jacobianIN).bind fun g =>
  ((g.setReference m).create .task m.task).map fun g => Graph.plugTask g m

/-- The constructor of `MetaTaskKinePosture` (src/dynamic_graph/sot/core/meta_task_posture.py:37-46, 89-93). The jacobian is a constant. -/
def makePosture (g : Graph T) (m : Meta) : Outcome (Graph T) :=
  (g.createGeneric m).bind fun g =>
  (g.plugRobot ['p', 'o', 's', 'i', 't', 'i', 'o', 'n'] m.feature .errorIN).bind fun g =>
  ((g.setReference m).create .task m.task).map fun g => Graph.plugTask g m

/-- The setters of `opmodif` (src/dynamic_graph/sot/core/meta_task_6d.py:98-109) and `opmodifBase`
(src/dynamic_graph/sot/core/meta_tasks_kine_relative.py:79-90): `none` is `False`. -/
def Graph.setModif (g : Graph T) (feature modif op : Name) (p j : Input) : Option T → Outcome (Graph T)
  | none => (g.plugRobot op feature p).bind fun g => (g.plugRobot ('J' :: op) feature j).map fun g =>
    { g with activ := upd g.activ modif false }
  | some v =>
    let g := if !g.activ modif then (g.plug (.position modif) feature p).plug (.jacobian modif) feature j else g
    .ok { g with transformation := upd g.transformation modif (some v), activ := upd g.activ modif true }

/-- The statements of a script: the constructor of a meta task, and the assignments of its attributes. -/
inductive Op (T : Type) where
  | make (m : Meta)
  | modif (m : Meta) (t : Option T)
  | modifBase (m : Meta) (t : Option T)

/-- One statement. The meta tasks of generic features have no operational point: Python would add the attribute to the object, without
effect on the graph. -/
def step (create : List Name → Name → Outcome (List Name)) (g : Graph T) : Op T → Outcome (Graph T)
  | .make m =>
    match m.kind with
    | .point => makePoint create g m
    | .relative => makeRelative create g m
    | .com => makeCom g m
    | .posture => makePosture g m
  | .modif m t =>
    match m.kind with
    | .point | .relative => g.setModif m.feature m.modif m.op .position .jq t
    | _ => .ok g
  | .modifBase m t =>
    match m.kind with
    | .relative => g.setModif m.feature m.modifBase m.base .positionRef .jqRef t
    | _ => .ok g

/-- A script. -/
def run (create : List Name → Name → Outcome (List Name)) : Graph T → List (Op T) → Outcome (Graph T)
  | g, [] => .ok g
  | g, o :: os => (step create g o).bind fun g' => run create g' os

end Verif.Wiring
