import Verif.Flags.Model
import Verif.Gain.Model
import Verif.MatrixUtil.Model

/-!
# The meta tasks of the Python library

`MetaTask6d`, its relative and visual versions, and the functions that set a goal (src/dynamic_graph/sot/core/meta_task_6d.py,
meta_tasks.py, meta_tasks_kine_relative.py, meta_task_visual_point.py).

Simplifications: floats are reals. A Python exception is `throw`. A plug is the choice of what an input reads, and the plugged
signals are read at the same time; the caching of signals is not modelled. The jacobian of the derivative, that the tasks of this
library do not have, is not reset.
-/

namespace Verif.MetaTask

open Verif.Geometry Verif.Homogeneous Verif.MatrixUtil

/-! ### Existence of an operational point -/

/-- `name.split(":")[-1]` (src/dynamic_graph/sot/core/meta_task_6d.py:25, 27). -/
def lastPart : List Char → List Char
  | [] => []
  | c :: cs => if c = ':' then lastPart cs else if cs.contains ':' then lastPart cs else c :: cs

/-- `MetaTask6d.opPointExist` (src/dynamic_graph/sot/core/meta_task_6d.py:24-29), on the names of the signals of the robot. The chained
comparison is `len(sigsP) == (1 & len(sigsJ))` and `(1 & len(sigsJ)) == 1`. -/
def opPointExist (names : List (List Char)) (op : List Char) : Bool :=
  let sigsP := names.filter fun x => lastPart x == op
  let sigsJ := names.filter fun x => lastPart x == 'J' :: op
  sigsP.length == (1 &&& sigsJ.length) && (1 &&& sigsJ.length) == 1

/-- `MetaTask6d.createOpPoint` (src/dynamic_graph/sot/core/meta_task_6d.py:34-38) and `createOpPointBase`
(src/dynamic_graph/sot/core/meta_tasks_kine_relative.py:14-18): `create` is the command of the robot. -/
def createOpPoint (create : List (List Char) → List Char → Outcome (List (List Char))) (names : List (List Char)) (op : List Char) :
    Outcome (List (List Char)) :=
  if opPointExist names op then .ok names else create names op

/-- `MetaTaskVisualPoint.opPointExist` (src/dynamic_graph/sot/core/meta_task_visual_point.py:19-26): in Python 3 the result of `filter`
has no length. -/
def visualOpPointExist (_names : List (List Char)) (_op : List Char) : Outcome Bool := .throw

/-- `MetaTaskVisualPoint.createOpPoint` (src/dynamic_graph/sot/core/meta_task_visual_point.py:31-35), that the constructor calls at
line 73. -/
def visualCreateOpPoint (create : List (List Char) → List Char → Outcome (List (List Char))) (names : List (List Char)) (op : List Char) :
    Outcome (List (List Char)) :=
  (visualOpPointExist names op).bind fun b => if b then .ok names else create names op

/-! ### Displacement of the operational point -/

variable {F : Type} [Field F]

/-- What an input of the feature is plugged to: the signal of the robot or that of the modifier
(src/dynamic_graph/sot/core/meta_task_6d.py:101-102, 106-107). -/
inductive Src where
  | robot
  | modifier
  deriving DecidableEq, Repr

/-- The plugs of the feature, the attribute `activ` and the transformation of the modifier, which is not initialised by its constructor
(src/dynamic_graph/sot/core/meta_task_6d.py:40-46, 63-64; src/math/op-point-modifier.cpp:41). -/
structure Point (F : Type) where
  position : Src
  jacobian : Src
  activ : Bool
  transformation : Option (Pose F)

/-- After the constructor (src/dynamic_graph/sot/core/meta_task_6d.py:46, 63-64). -/
def Point.init : Point F := ⟨.robot, .robot, false, none⟩

/-- A value assigned to `opmodif`: `False`, a transformation, or a value that `setTransformation` refuses, as `True`
(src/dynamic_graph/sot/core/meta_task_6d.py:100, 108). -/
inductive Modif (F : Type) where
  | off
  | to (m : Pose F)
  | refused

/-- The setter of `opmodif` (src/dynamic_graph/sot/core/meta_task_6d.py:98-109) and those of the relative and visual tasks
(src/dynamic_graph/sot/core/meta_tasks_kine_relative.py:79-90, src/dynamic_graph/sot/core/meta_task_visual_point.py:104-115). The flag
tells whether it returned. -/
def Point.set (s : Point F) : Modif F → Point F × Bool
  | .off => ({ s with position := .robot, jacobian := .robot, activ := false }, true)
  | m =>
    let s := if !s.activ then { s with position := .modifier, jacobian := .modifier } else s
    match m with
    | .to m => ({ s with transformation := some m, activ := true }, true)
    | _ => (s, false)

/-- The getter of `opmodif` (src/dynamic_graph/sot/core/meta_task_6d.py:91-96), `none` for `False`. -/
def Point.modif (s : Point F) : Outcome (Option (Pose F)) :=
  if !s.activ then .ok none
  else match s.transformation with
    | some m => .ok (some m)
    | none => .ub

/-- The position that the feature reads when that of the robot is `p` (src/dynamic_graph/sot/core/meta_task_6d.py:42, 101, 106;
src/math/op-point-modifier.cpp:113-122). -/
def Point.readPosition (s : Point F) (p : Pose F) : Outcome (Pose F) :=
  match s.position with
  | .robot => .ok p
  | .modifier => match s.transformation with
    | some m => .ok (opPosition ⟨m, true⟩ p)
    | none => .ub

/-- The Jacobian that the feature reads (src/dynamic_graph/sot/core/meta_task_6d.py:43-45, 102, 107; src/math/op-point-modifier.cpp:68-77),
in the mode of the modifier that the meta task leaves. -/
noncomputable def Point.readJacobian {ι : Type} (s : Point F) (p : Pose F) (J : Matrix (Fin 3 ⊕ Fin 3) ι F) :
    Outcome (Matrix (Fin 3 ⊕ Fin 3) ι F) :=
  match s.jacobian with
  | .robot => .ok J
  | .modifier => match s.transformation with
    | some m => .ok (opJacobian ⟨m, true⟩ J p)
    | none => .ub

/-- A sequence of assignments to `opmodif`, each exception being caught by the script (src/dynamic_graph/sot/core/meta_task_6d.py:98-109). -/
def Point.run (l : List (Modif F)) : Point F := l.foldl (fun s m => (s.set m).1) .init

/-- The relative meta task: the point and the base (src/dynamic_graph/sot/core/meta_tasks_kine_relative.py:10, 20-30). -/
structure Relative (F : Type) where
  other : Point F
  base : Point F

/-- The assignment of `opmodif` or of `opmodifBase` (`true`) in a relative task
(src/dynamic_graph/sot/core/meta_tasks_kine_relative.py:79-90). -/
def Relative.step (s : Relative F) : Bool × Modif F → Relative F
  | (false, m) => { s with other := (s.other.set m).1 }
  | (true, m) => { s with base := (s.base.set m).1 }

/-! ### Gains and references -/

/-- The argument of `setGain` (src/dynamic_graph/sot/core/meta_tasks.py:40-49): nothing, a number, a sequence, or an object without a
length. -/
inductive GainArg where
  | nothing
  | number (x : ℝ)
  | sequence (l : List ℝ)
  | other

/-- `setGain` (src/dynamic_graph/sot/core/meta_tasks.py:40-49). -/
noncomputable def setGain (g : Gain.Adaptive) : GainArg → Outcome Gain.Adaptive
  | .nothing => .ok g
  | .number x => .ok (Gain.Adaptive.initConstant x)
  | .sequence [x] => .ok (Gain.Adaptive.initConstant x)
  | .sequence [x, y, z] => .ok (Gain.Adaptive.init x y z)
  | .sequence [x, y, z, w] => .ok (Gain.Adaptive.initFromPassingPoint x y z w)
  | .sequence _ => .ok g
  | .other => .throw

/-- The argument of `generic6dReference` (src/dynamic_graph/sot/core/meta_tasks.py:52): an array of `numpy` with its shape and its
elements in the order of the rows, of class `matrix` or not, a tuple of numbers, a tuple of tuples, or something else as a list. -/
inductive RefArg where
  | array (isMatrix : Bool) (shape : List Nat) (data : List ℝ)
  | numbers (l : List ℝ)
  | rows (l : List (List ℝ))
  | other

/-- `M = eye(4); M[0:3, 3] = p` (src/dynamic_graph/sot/core/meta_tasks.py:53, 55, 57). -/
def translationOf (p : List ℝ) : Homo ℝ := fun i j => if i.1 < 3 ∧ j = 3 then p.getD i 0 else if i = j then 1 else 0

/-- `M = array(rpy2tr(*p[3:7])); M[0:3, 3] = p[0:3]` (src/dynamic_graph/sot/core/meta_tasks.py:65-66). -/
noncomputable def poseOf (p : List ℝ) : Outcome (Homo ℝ) :=
  (rpy2tr (p.getD 3 0) (p.getD 4 0) (p.getD 5 0)).bind fun M => .ok fun i j => if i.1 < 3 ∧ j = 3 then p.getD i 0 else M i j

/-- `generic6dReference` (src/dynamic_graph/sot/core/meta_tasks.py:52-69). The assignment of an array to three elements needs the shape
to be three after ones; a row of a `matrix` has length one; an array without dimension has no length. -/
noncomputable def generic6dReference : RefArg → Outcome (Homo ℝ)
  | .array _ shape data =>
    if shape.prod = 3 then (if shape.getLast? = some 3 then .ok (translationOf data) else .throw)
    else if shape = [4, 4] then .ok fun i j => data.getD (4 * i.1 + j.1) 0
    else if shape = [] then .throw
    else if shape = [6] then poseOf data
    else if shape.head? = some 6 then .throw
    else .ok 1
  | .numbers l =>
    if l.length = 3 then .ok (translationOf l)
    else if l.length = 4 then .throw
    else if l.length = 6 then poseOf l
    else .ok 1
  | .rows l =>
    if l.length = 3 then .throw
    else if l.length = 4 ∧ ∀ r ∈ l, r.length = 4 then .ok fun i j => (l.getD i []).getD j 0
    else if l.length = 6 then .throw
    else .ok 1
  | .other => .ok 1

/-! ### Goals -/

/-- What the functions that set a goal write: the reference, the selection and the gain
(src/dynamic_graph/sot/core/meta_tasks.py:72-96). -/
structure Goal where
  reference : Option (Homo ℝ)
  selec : Flags.Flags
  gain : Gain.Adaptive

/-- `goto6d` (src/dynamic_graph/sot/core/meta_tasks.py:72-81). The flag tells whether it returned. -/
noncomputable def goto6d (s : Goal) (p : RefArg) (g : GainArg) : Goal × Bool :=
  match generic6dReference p with
  | .ok M =>
    let s := { s with reference := some M, selec := ⟨List.replicate 6 true, false⟩ }
    match setGain s.gain g with
    | .ok g => ({ s with gain := g }, true)
    | _ => (s, false)
  | _ => (s, false)

/-- The argument `selec` of `gotoNd` (src/dynamic_graph/sot/core/meta_tasks.py:86-89, src/python-module.cc:64-77): nothing, flags, a
string, a list of booleans or something that is none of these. -/
inductive SelecArg where
  | nothing
  | flags (f : Flags.Flags)
  | text (s : List Char)
  | bits (l : List Bool)
  | other

/-- The conversion to flags (src/dynamic_graph/sot/core/meta_tasks.py:87-88, src/python-module.cc:64-77). -/
def toFlags (d : Flags.Flags) : SelecArg → Outcome Flags.Flags
  | .nothing => .ok d
  | .flags f => .ok f
  | .text s => Flags.ofChars s
  | .bits l => .ok (Flags.ofVector l)
  | .other => .throw

/-- `gotoNd` (src/dynamic_graph/sot/core/meta_tasks.py:84-96). -/
noncomputable def gotoNd (s : Goal) (p : RefArg) (selec : SelecArg) (g : GainArg) : Goal × Bool :=
  match generic6dReference p with
  | .ok M =>
    match toFlags s.selec selec with
    | .ok f =>
      let s := { s with selec := f, reference := some M }
      match setGain s.gain g with
      | .ok g => ({ s with gain := g }, true)
      | _ => (s, false)
    | _ => (s, false)
  | _ => (s, false)

/-- What the functions that set a goal of a relative task write (src/dynamic_graph/sot/core/meta_tasks_kine_relative.py:96-124). -/
structure RelGoal where
  reference : Option (Homo ℝ)
  referenceBase : Option (Homo ℝ)
  selec : Flags.Flags
  gain : Gain.Adaptive

/-- `gotoNdRel` (src/dynamic_graph/sot/core/meta_tasks_kine_relative.py:110-124). -/
noncomputable def gotoNdRel (s : RelGoal) (p pRef : RefArg) (selec : SelecArg) (g : GainArg) : RelGoal × Bool :=
  match generic6dReference p with
  | .ok M =>
    match generic6dReference pRef with
    | .ok MRef =>
      match toFlags s.selec selec with
      | .ok f =>
        let s := { s with selec := f, reference := some M, referenceBase := some MRef }
        match setGain s.gain g with
        | .ok g => ({ s with gain := g }, true)
        | _ => (s, false)
      | _ => (s, false)
    | _ => (s, false)
  | _ => (s, false)

/-- `goto6dRel` (src/dynamic_graph/sot/core/meta_tasks_kine_relative.py:96-107). -/
noncomputable def goto6dRel (s : RelGoal) (p pRef : RefArg) (g : GainArg) : RelGoal × Bool :=
  match generic6dReference p with
  | .ok M =>
    match generic6dReference pRef with
    | .ok MRef =>
      let s := { s with reference := some M, referenceBase := some MRef, selec := ⟨List.replicate 6 true, false⟩ }
      match setGain s.gain g with
      | .ok g => ({ s with gain := g }, true)
      | _ => (s, false)
    | _ => (s, false)
  | _ => (s, false)

/-! ### The identity written as tuples -/

/-- `i * (0.0,) + (1.0,) + (3 - i) * (0.0,)` (src/dynamic_graph/sot/core/feature_position_relative.py:14): a product by a negative number
is empty. -/
def tupleRow (n i : Nat) : List ℝ := List.replicate i 0 ++ [1] ++ List.replicate (n - 1 - i) 0

/-- `I4`, for any order (src/dynamic_graph/sot/core/feature_position_relative.py:14). -/
def tupleIdentity (n : Nat) : List (List ℝ) := (List.range n).foldl (fun m i => m ++ [tupleRow n i]) []

end Verif.MetaTask
