import Verif.Features.Model
import Verif.Geometry.Model
import Verif.Geometry.Convert
import Verif.Point6d.Rotation
import Verif.Point6d.Model
import Mathlib.LinearAlgebra.CrossProduct

/-!
# The feature of the pose of a frame with respect to another one

Simplifications: the doubles are real numbers; the member functions `rotation()` of the affine transforms, which extract the rotation
from the linear part, are the linear part, which is the same for the linear parts that are rotations, as the theorems require. The
conversion of the positions to a translation and a quaternion (include/sot/core/feature-pose.hxx:137-146, 215-229) is left out: the
operations of the Lie groups convert the quaternions back to the same rotations. These operations, `difference` and `dDifference`, come
from the library pinocchio and are taken by their documented meaning: for the product of the translations and of the rotations the
difference of `a` and `b` is the difference of the translations and the rotation vector of the rotation from `a` to `b`, and its
derivatives are the identities for the translations and the inverse of the right Jacobian of the rotation vector for the rotations. The
assertions that the inputs are plugged (include/sot/core/feature-pose.hxx:112-120) are met.
-/

namespace Verif.Point6d

open Matrix Verif.Geometry Verif.Features

/-- `computefaMfb` (include/sot/core/feature-pose.hxx:205-213). -/
noncomputable def faMfb (oMja jaMfa oMjb jbMfb : Pose ℝ) : Pose ℝ := ((oMja.mul jaMfa).inv.mul oMjb).mul jbMfb

/-- The rotation `faRfb` of `computeJacobian` (include/sot/core/feature-pose.hxx:172-174). -/
noncomputable def faRfb (oMja jaMfa oMjb jbMfb : Pose ℝ) : Matrix (Fin 3) (Fin 3) ℝ := jaMfa.Rᵀ * oMja.Rᵀ * oMjb.R * jbMfb.R

/-- The call `LieGroup_t().difference` (include/sot/core/feature-pose.hxx:239) of pinocchio, by specification. -/
noncomputable def poseDifference (Mdes M : Pose ℝ) : Fin 3 ⊕ Fin 3 → ℝ :=
  Sum.elim (M.t - Mdes.t) (rotVec (Mdes.Rᵀ * M.R))

/-- The call `LieGroup_t().dDifference<ARG1>` (include/sot/core/feature-pose.hxx:177-178) of pinocchio, by specification: the derivative
with respect to the second argument. -/
noncomputable def dDifference1 (Mdes M : Pose ℝ) : Matrix (Fin 3 ⊕ Fin 3) (Fin 3 ⊕ Fin 3) ℝ :=
  fromBlocks 1 0 0 (rightJac (rotVec (Mdes.Rᵀ * M.R)))⁻¹

/-- The call `LieGroup_t().dDifference<ARG0>` (include/sot/core/feature-pose.hxx:293-294) of pinocchio, by specification: the derivative
with respect to the first argument. -/
noncomputable def dDifference0 (Mdes M : Pose ℝ) : Matrix (Fin 3 ⊕ Fin 3) (Fin 3 ⊕ Fin 3) ℝ :=
  fromBlocks (-1) 0 0 (-((rightJac (rotVec (Mdes.Rᵀ * M.R)))⁻¹ * (Mdes.Rᵀ * M.R)ᵀ))

/-- The statement `X.topRows<3>().applyOnTheLeft(faRfb)` (include/sot/core/feature-pose.hxx:175-176, 193-194). -/
noncomputable def applyTop (R : Matrix (Fin 3) (Fin 3) ℝ) (X : Matrix (Fin 3 ⊕ Fin 3) (Fin 3 ⊕ Fin 3) ℝ) :
    Matrix (Fin 3 ⊕ Fin 3) (Fin 3 ⊕ Fin 3) ℝ := fun r c => match r with
  | .inl i => ∑ k, R i k * X (.inl k) c
  | .inr i => X (.inr i) c

/-- The six rows of the Jacobian, before the selection (include/sot/core/feature-pose.hxx:165-200). `jaJja` is present when the signal is
plugged. -/
noncomputable def poseJacobian {ι : Type} (oMja jaMfa oMjb jbMfb Mdes : Pose ℝ) (jaJja : Option (Matrix (Fin 3 ⊕ Fin 3) ι ℝ))
    (jbJjb : Matrix (Fin 3 ⊕ Fin 3) ι ℝ) : Matrix (Fin 3 ⊕ Fin 3) ι ℝ :=
  let M := faMfb oMja jaMfa oMjb jbMfb
  let R := faRfb oMja jaMfa oMjb jbMfb
  let Jminus := dDifference1 Mdes M
  let X := applyTop R (twist jbMfb.inv)
  let J := Jminus * X * jbJjb
  match jaJja with
  | none => J
  | some Ja => J - Jminus * applyTop R (twist (jaMfa.mul M).inv) * Ja

/-- `computeJacobian` (include/sot/core/feature-pose.hxx:148-203). -/
noncomputable def poseComputeJacobian {ι : Type} (sel : Nat → Bool) (oMja jaMfa oMjb jbMfb Mdes : Pose ℝ)
    (jaJja : Option (Matrix (Fin 3 ⊕ Fin 3) ι ℝ)) (jbJjb : Matrix (Fin 3 ⊕ Fin 3) ι ℝ) (res : List (ι → ℝ)) : Outcome (List (ι → ℝ)) :=
  fillLoop sel (component (poseJacobian oMja jaMfa oMjb jbMfb Mdes jaJja jbJjb)) 6 0 0 res

/-- `computeError` (include/sot/core/feature-pose.hxx:231-247). -/
noncomputable def poseComputeError (sel : Nat → Bool) (oMja jaMfa oMjb jbMfb Mdes : Pose ℝ) (res : List ℝ) : Outcome (List ℝ) :=
  fillLoop sel (component (poseDifference Mdes (faMfb oMja jaMfa oMjb jbMfb))) 6 0 0 res

/-- `convertVelocity<R3xSO3_t>` (include/sot/core/feature-pose.hxx:261-270). -/
noncomputable def convertVelocity (M Mdes : Pose ℝ) (nu : Fin 3 ⊕ Fin 3 → ℝ) : Fin 3 ⊕ Fin 3 → ℝ :=
  Sum.elim ((fun i => nu (.inl i)) - M.t ⨯₃ (fun i => nu (.inr i))) (Mdes.Rᵀ *ᵥ fun i => nu (.inr i))

/-- The six components of `computeErrorDot`, before the selection (include/sot/core/feature-pose.hxx:291-299). -/
noncomputable def poseErrordot (M Mdes : Pose ℝ) (nu : Fin 3 ⊕ Fin 3 → ℝ) : Fin 3 ⊕ Fin 3 → ℝ :=
  dDifference0 Mdes M *ᵥ convertVelocity M Mdes nu

/-- `computeErrorDot` (include/sot/core/feature-pose.hxx:272-302). `nu` is present when the signal is plugged. -/
noncomputable def poseComputeErrorDot (sel : Nat → Bool) (M Mdes : Pose ℝ) (nu : Option (Fin 3 ⊕ Fin 3 → ℝ)) (res : List ℝ) :
    Outcome (List ℝ) :=
  match nu with
  | none => .ok (List.replicate res.length 0)
  | some n => fillLoop sel (component (poseErrordot M Mdes n)) 6 0 0 res

/-- `servoCurrentPosition` (include/sot/core/feature-pose.hxx:307-318), the command `keep`: the desired pose afterwards. -/
noncomputable def poseKeep (oMja jaMfa oMjb jbMfb : Pose ℝ) : Pose ℝ := ((oMja.mul jaMfa).inv.mul oMjb).mul jbMfb

/-! ### Poses compared as rigid motions -/

/-- The velocity that the derivative of the logarithm multiplies in `computeJacobian`, for the representation SE(3)
(include/sot/core/feature-pose.hxx:171-200): the rows are not rotated. -/
noncomputable def se3Velocity {ι : Type} [Fintype ι] (oMja jaMfa oMjb jbMfb : Pose ℝ) (jaJja : Option (Matrix (Fin 3 ⊕ Fin 3) ι ℝ))
    (jbJjb : Matrix (Fin 3 ⊕ Fin 3) ι ℝ) (u : ι → ℝ) : Fin 3 ⊕ Fin 3 → ℝ :=
  match jaJja with
  | none => twist jbMfb.inv *ᵥ (jbJjb *ᵥ u)
  | some Ja => twist jbMfb.inv *ᵥ (jbJjb *ᵥ u) - twist (jaMfa.mul (faMfb oMja jaMfa oMjb jbMfb)).inv *ᵥ (Ja *ᵥ u)

/-- `convertVelocity<SE3_t>` (include/sot/core/feature-pose.hxx:252-260). -/
noncomputable def se3ConvertVelocity (Mdes : Pose ℝ) (nu : Fin 3 ⊕ Fin 3 → ℝ) : Fin 3 ⊕ Fin 3 → ℝ := twist Mdes.inv *ᵥ nu

end Verif.Point6d
