import Verif.Geometry.Model
import Verif.Common.Outcome
import Mathlib.Algebra.Order.Field.Basic

/-!
# Admittance control at an operational point

Model of `src/control/admittance-control-op-point.cpp` and `include/sot/core/admittance-control-op-point.hh`.

Simplifications:

* doubles are elements of an ordered field;
* the six-dimensional signals have six components, as the code asserts; they are indexed by `Fin 3 ⊕ Fin 3`, linear part
  first, as pinocchio does;
* the inner signals are computed once for each time, when the output is asked for;
* `pinocchio::SE3` built from a homogeneous matrix holds its rotation and its translation; the assertion of pinocchio that
  the rotation is one is not modelled;
* the profiler and the messages are left out.
-/

namespace Verif.Admittance

open Matrix Verif.Geometry

variable {F : Type} [Field F] [LinearOrder F]

/-- A vector of six components. -/
abbrev V6 (F : Type) := Fin 3 ⊕ Fin 3 → F

/-- The cross product, of the actions of pinocchio called at lines 129 and 187 of
`src/control/admittance-control-op-point.cpp`. -/
def cross (a b : Fin 3 → F) : Fin 3 → F := ![a 1 * b 2 - a 2 * b 1, a 2 * b 0 - a 0 * b 2, a 0 * b 1 - a 1 * b 0]

/-- `SE3::act` of a force, of pinocchio (used in `src/control/admittance-control-op-point.cpp:129`). -/
def actForce (m : Pose F) (f : V6 F) : V6 F :=
  Sum.elim (m.R *ᵥ fun i => f (.inl i))
    (m.R *ᵥ (fun i => f (.inr i)) + cross m.t (m.R *ᵥ fun i => f (.inl i)))

/-- `SE3::actInv` of a motion, of pinocchio (used in `src/control/admittance-control-op-point.cpp:187`). -/
def actInvMotion (m : Pose F) (v : V6 F) : V6 F :=
  Sum.elim (m.Rᵀ *ᵥ ((fun i => v (.inl i)) - cross m.t fun i => v (.inr i)))
    (m.Rᵀ *ᵥ fun i => v (.inr i))

/-- The attributes of the entity (`include/sot/core/admittance-control-op-point.hh:109-119`). `m_n`, `m_dt` and the size of
`m_w_dq` are set by `init`: they are together `none` before it. -/
structure State (F : Type) where
  plugged : Bool
  inner : Option (F × V6 F)

/-- The constructor (`src/control/admittance-control-op-point.cpp:55-69`). -/
def State.create : State F := ⟨false, none⟩

/-- The input signals at some time (`src/control/admittance-control-op-point.cpp:57-63`). -/
structure Inputs (F : Type) where
  Kp : V6 F
  Kd : V6 F
  dqSaturation : V6 F
  force : V6 F
  wForceDes : V6 F
  opPose : Pose F
  sensorPose : Pose F

/-- `init` (`src/control/admittance-control-op-point.cpp:80-104`): refused unless the seven inputs are plugged. -/
def init (s : State F) (dt : F) : State F :=
  if ¬ s.plugged then s else { s with inner := some (dt, 0) }

/-- `resetDq` (`src/control/admittance-control-op-point.cpp:106-109`). Before `init`, `m_n` is not initialised. -/
def resetDq (s : State F) : Outcome (State F) :=
  match s.inner with
  | none => .ub
  | some (dt, _) => .ok { s with inner := some (dt, 0) }

/-- `w_force` (`src/control/admittance-control-op-point.cpp:114-134`). -/
def wForce (i : Inputs F) : V6 F := actForce i.sensorPose i.force

section AnyNumbers

variable {F : Type} [Add F] [Sub F] [Mul F] [Neg F] [LinearOrder F]

/-- The two tests of the loop, on one component (`src/control/admittance-control-op-point.cpp:162-163`). -/
def saturate (sat w : F) : F :=
  let w1 := if w > sat then sat else w
  if w1 < -sat then -sat else w1

/-- One component of `m_w_dq` (`src/control/admittance-control-op-point.cpp:158-163`): only the operations that the code does. -/
def dqComp (dt sat kp kd des force w : F) : F := saturate sat (w + dt * (kp * (des - force)) - kd * w)

end AnyNumbers

/-- `w_dq` (`src/control/admittance-control-op-point.cpp:158-164`). -/
def wDq (dt : F) (w : V6 F) (i : Inputs F) : V6 F := fun k =>
  dqComp dt (i.dqSaturation k) (i.Kp k) (i.Kd k) (i.wForceDes k) (wForce i k) (w k)

/-- The output `dq` asked for at a new time: the new state, the value of the inner signal `w_dq` and the one of `dq`; `none`
before `init`, when the signals are left as they are (`src/control/admittance-control-op-point.cpp:136-192`). -/
def tick (s : State F) (i : Inputs F) : State F × Option (V6 F × V6 F) :=
  match s.inner with
  | none => (s, none)
  | some (dt, w) =>
    let w' := wDq dt w i
    ({ s with inner := some (dt, w') }, some (w', actInvMotion i.opPose w'))

/-- What is asked of the entity (`src/control/admittance-control-op-point.cpp:72-77`, `:136-192`). -/
inductive Op (F : Type) where
  /-- The inputs are plugged. -/
  | plug
  | init (dt : F)
  | resetDq
  | tick (i : Inputs F)

/-- One operation (`src/control/admittance-control-op-point.cpp:72-77`). -/
def step (s : State F) : Op F → Outcome (State F)
  | .plug => .ok { s with plugged := true }
  | .init dt => .ok (init s dt)
  | .resetDq => resetDq s
  | .tick i => .ok (tick s i).1

/-- Any history of the operations of `src/control/admittance-control-op-point.cpp:72-77`, `:136-192`. -/
def run : State F → List (Op F) → Outcome (State F)
  | s, [] => .ok s
  | s, o :: h => (step s o).bind fun s' => run s' h

end Verif.Admittance
