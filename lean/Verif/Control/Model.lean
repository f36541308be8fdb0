import Verif.Common.Outcome
import Mathlib.Data.Matrix.Mul
import Mathlib.Data.Real.Basic

/-!
# The controllers `ControlPD` and `ControlGR`

Simplifications: doubles are reals; `ControlPD` asks only for the operations that it does, so that they may round. The coefficient-wise operations of Eigen assert that both operands, and the destination, have the same
size; a failed assertion is undefined behaviour here, since a release build reads out of range.
-/

namespace Verif.Control

variable {F : Type} [Add F] [Sub F] [Mul F]

/-- `x.array() - y.array()` and the like: both sizes must agree. -/
def cwise (f : F → F → F) (x y : List F) : Outcome (List F) := if x.length = y.length then .ok (List.zipWith f x y) else .ub

/-- `z.array() = e` for a vector `z` of size `n`, which is not resized. -/
def assign (n : Nat) (e : List F) : Outcome (List F) := if e.length = n then .ok e else .ub

/-- The output and the two members that a computation of the control sets (include/sot/core/control-pd.hh:80-81). -/
structure PD (F : Type) where
  tau : List F
  positionError : List F
  velocityError : List F

/-- `ControlPD::computeControl` (src/control/control-pd.cpp:84-107). -/
def computePD (Kp Kd position desiredPosition velocity desiredVelocity : List F) : Outcome (PD F) :=
  let size := Kp.length
  ((cwise (· - ·) desiredPosition position).bind (assign size)).bind fun pe =>
  ((cwise (· - ·) desiredVelocity velocity).bind (assign size)).bind fun ve =>
  (cwise (· * ·) pe Kp).bind fun a =>
  (cwise (· * ·) ve Kd).bind fun b =>
  ((cwise (· + ·) a b).bind (assign size)).bind fun tau =>
  .ok ⟨tau, pe, ve⟩

/-- `ControlPD::getPositionError` (src/control/control-pd.cpp:109-115). -/
def positionError (Kp Kd position desiredPosition velocity desiredVelocity : List F) : Outcome (List F) :=
  (computePD Kp Kd position desiredPosition velocity desiredVelocity).map PD.positionError

/-- `ControlPD::getVelocityError` (src/control/control-pd.cpp:117-122). -/
def velocityError (Kp Kd position desiredPosition velocity desiredVelocity : List F) : Outcome (List F) :=
  (computePD Kp Kd position desiredPosition velocity desiredVelocity).map PD.velocityError

/-- `ControlGR::computeControl` (src/control/control-gr.cpp:88-123): the assignment of line 106 resizes the result, so the resize of line
96 has no effect. -/
noncomputable def computeGR {n m : Nat} (A : Matrix (Fin n) (Fin m) ℝ) (acceleration gravity : List ℝ) : Outcome (List ℝ) :=
  if h : acceleration.length = m then
    cwise (· + ·) (List.ofFn (A.mulVec fun j => acceleration[j.1])) gravity
  else .ub

end Verif.Control
