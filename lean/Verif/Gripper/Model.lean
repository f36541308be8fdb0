import Verif.Common.Outcome
import Verif.Flags.Model
import Mathlib.Algebra.Order.Field.Basic

/-!
# Model of the gripper control

`GripperControl` and `GripperControlPlugin` (src/tools/gripper-control.cpp). Doubles are elements of an
ordered field: rounding, infinities and NaN are not modelled. The definitions ask only for the operations that
the code does, so that they can also be read with rounded numbers.
-/
set_option linter.unusedSectionVars false

namespace Verif.Gripper

variable {F : Type} [Zero F] [One F] [OfNat F 5] [OfNat F 9] [OfNat F 10] [OfNat F 1000] [Add F] [Sub F] [Mul F] [Div F] [Neg F]
  [LinearOrder F]

/-- The two members of `GripperControl` (include/sot/core/gripper-control.hh:58-61). -/
structure State (F : Type) where
  offset : F
  factor : List F

/-- The constructor: `OFFSET_DEFAULT = 0.9`, an empty factor (src/tools/gripper-control.cpp:39, 44-45). -/
def State.fresh : State F := ⟨9 / 10, []⟩

/-- The constant `DT` (src/tools/gripper-control.cpp:42). -/
def dt : F := 5 / 1000

/-- `GripperControlPlugin::setOffset` (src/tools/gripper-control.cpp:187-192). -/
def setOffset (g : State F) (value : F) : Outcome (State F) :=
  if value > 0 ∧ value < 1 then .ok { g with offset := value } else .throw

/-- The new factor of one component (src/tools/gripper-control.cpp:117-128). -/
def newFactor (offset torque limit vel factor : F) : F :=
  let f :=
    if torque > limit ∧ vel > 0 then factor * offset
    else if torque < -limit ∧ vel < 0 then factor * offset
    else factor / offset
  min 1 (max f 0)

/-- The loop over the components, `i` being the index of the first of the remaining ones
(src/tools/gripper-control.cpp:114-129). `torques(i)` and `torqueLimits(i)` are read without check. The
list of factors has the size of the velocity when the loop starts. -/
def loop (offset : F) (torques limits : List F) : Nat → List F → List F → Outcome (List F)
  | _, [], fs => .ok fs
  | _, _ :: _, [] => .ub
  | i, v :: vs, f :: fs =>
    (rd torques i).bind fun t => (rd limits i).bind fun l =>
      (loop offset torques limits (i + 1) vs fs).map (newFactor offset t l v f :: ·)

/-- `computeIncrement` (src/tools/gripper-control.cpp:96-130). -/
def computeIncrement (g : State F) (torques limits vel : List F) : Outcome (State F) :=
  let fs := if g.factor.length ≠ vel.length then List.replicate vel.length 1 else g.factor
  if torques.length = 0 then .ok { g with factor := fs }
  else (loop g.offset torques limits 0 vel fs).map fun fs' => { g with factor := fs' }

/-- `a - b`, `a + b` of two vectors: Eigen requires equal sizes, otherwise undefined behaviour. -/
def vzip (op : F → F → F) (a b : List F) : Outcome (List F) :=
  if a.length = b.length then .ok (List.zipWith op a b) else .ub

/-- `velocity * factor` (src/tools/gripper-control.cpp:151): this is Eigen's *matrix* product of two
column vectors, defined only when the second has one row; otherwise the assertion of Eigen fails in
debug mode and the memory of the second operand is misread in release mode. -/
def matProd (v f : List F) : Outcome (List F) :=
  match f with
  | [x] => .ok (v.map (· * x))
  | _ => .ub

/-- `computeDesiredPosition` (src/tools/gripper-control.cpp:132-158). -/
def computeDesiredPosition (g : State F) (cur des torques limits : List F) :
    Outcome (State F × List F) :=
  (vzip (· - ·) des cur).bind fun d =>
    let vel := d.map (· * (1 / dt))
    (computeIncrement g torques limits vel).bind fun g' =>
      (matProd vel g'.factor).bind fun w =>
        (vzip (· + ·) cur (w.map (· * dt))).map fun r => (g', r)

/-- The second loop of `selector`, `i` being the index of the first remaining component
(src/tools/gripper-control.cpp:170-172). -/
def selectLoop (sel : Flags.Flags) : Nat → List F → Outcome (List F)
  | _, [] => .ok []
  | i, x :: xs =>
    (Flags.call sel i).bind fun b =>
      (selectLoop sel (i + 1) xs).map fun r => if b then x :: r else r

/-- `selector` (src/tools/gripper-control.cpp:160-175). The first loop only counts the selected
components to size the result, which the second one fills; the two loops are one here. -/
def selector (full : List F) (sel : Flags.Flags) : Outcome (List F) := selectLoop sel 0 full

/-- The operations that can reach the object: the command `offset` and the evaluation of the output. -/
inductive Op (F : Type) where
  | offset (value : F)
  | compute (cur des torques limits : List F)

/-- One operation; a refused offset throws and leaves the object unchanged
(src/tools/gripper-control.cpp:132-158, 187-192). -/
def step (g : State F) : Op F → Outcome (State F)
  | .offset v => match setOffset g v with
    | .throw => .ok g
    | r => r
  | .compute c d t l => (computeDesiredPosition g c d t l).map Prod.fst

/-- A history of operations. -/
def run (g : State F) : List (Op F) → Outcome (State F)
  | [] => .ok g
  | o :: os => (step g o).bind fun g' => run g' os

end Verif.Gripper
