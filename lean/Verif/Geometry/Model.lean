import Verif.Common.Outcome
import Mathlib.LinearAlgebra.Matrix.NonsingularInverse
import Mathlib.LinearAlgebra.Matrix.Notation
import Mathlib.Data.Matrix.Block
import Mathlib.Analysis.Complex.Trigonometric

/-!
# Model of the rigid-body geometry

Poses, twist matrices (include/sot/core/matrix-geometry.hh, src/matrix/operator.hh), the operational point
modifier (src/math/op-point-modifier.cpp), rotations from angles (src/matrix/vector-to-rotation.cpp) and
quaternions. Doubles are elements of a field (of the reals where angles occur). Six-dimensional indices
are `Fin 3 ⊕ Fin 3`: `inl i` is row `i`, `inr i` is row `i + 3`.
-/
set_option linter.unusedSectionVars false

namespace Verif.Geometry

open Matrix

variable {F : Type} [Field F]

/-- `MatrixHomogeneous`: `Eigen::Transform<double, 3, Affine>` (include/sot/core/matrix-geometry.hh:74-75).
The bottom row of the 4x4 storage is taken to be `0 0 0 1`, as Eigen's affine mode does. -/
@[ext] structure Pose (F : Type) where
  R : Matrix (Fin 3) (Fin 3) F
  t : Fin 3 → F

/-- `a * b` of two poses (Eigen; used in src/math/op-point-modifier.cpp:119, src/tools/clamp-workspace.cpp:88). -/
def Pose.mul (a b : Pose F) : Pose F := ⟨a.R * b.R, a.R *ᵥ b.t + a.t⟩

/-- The identity pose. -/
def Pose.one : Pose F := ⟨1, 0⟩

/-- `m.inverse()` and `m.inverse(Eigen::Affine)` of a pose (Eigen; used in src/math/op-point-modifier.cpp:75,
src/tools/clamp-workspace.cpp:87, 136, src/matrix/operator.hh:258). -/
noncomputable def Pose.inv (a : Pose F) : Pose F := ⟨a.R⁻¹, -(a.R⁻¹ *ᵥ a.t)⟩

/-- The matrix `Tx` (include/sot/core/matrix-geometry.hh:92, src/matrix/operator.hh:426). -/
def skew (t : Fin 3 → F) : Matrix (Fin 3) (Fin 3) F :=
  !![0, -t 2, t 1; t 2, 0, -t 0; -t 1, t 0, 0]

/-- A 6x6 matrix. -/
abbrev Mat6 (F : Type) := Matrix (Fin 3 ⊕ Fin 3) (Fin 3 ⊕ Fin 3) F

/-- `buildFrom(MatrixHomogeneous, MatrixTwist)` and `HomoToTwist`
(include/sot/core/matrix-geometry.hh:88-100, src/matrix/operator.hh:421-435). -/
def twist (m : Pose F) : Mat6 F := fromBlocks m.R (skew m.t * m.R) 0 m.R

/-- `SkewSymToVector` (src/matrix/operator.hh:298-305): linear indices of a column-major 3x3 matrix, 7 is
`(1,2)`, 2 is `(2,0)`, 3 is `(0,1)`. -/
def skewSymToVector (m : Matrix (Fin 3) (Fin 3) F) : Fin 3 → F := ![m 1 2, m 2 0, m 0 1]

/-- `SE3VectorToMatrixHomo` (src/matrix/operator.hh:320-328): translation then the three rows. -/
def se3VectorToHomo (v : Fin 12 → F) : Pose F :=
  ⟨!![v 3, v 4, v 5; v 6, v 7, v 8; v 9, v 10, v 11], ![v 0, v 1, v 2]⟩

/-- `MatrixHomoToSE3Vector` (src/matrix/operator.hh:330-339). -/
def homoToSE3Vector (m : Pose F) : Fin 12 → F :=
  ![m.t 0, m.t 1, m.t 2, m.R 0 0, m.R 0 1, m.R 0 2, m.R 1 0, m.R 1 1, m.R 1 2, m.R 2 0, m.R 2 1, m.R 2 2]

/-! ### Operational point modifier -/

/-- The two parameters of `OpPointModifier` (src/math/op-point-modifier.cpp:41-42). The transformation is
uninitialised until `setTransformation`. -/
structure OpPoint (F : Type) where
  transformation : Pose F
  isEndEffector : Bool

/-- `positionSOUT_function` (src/math/op-point-modifier.cpp:113-122). -/
def opPosition (o : OpPoint F) (position : Pose F) : Pose F := position.mul o.transformation

/-- `jacobianSOUT_function` (src/math/op-point-modifier.cpp:68-111), for a Jacobian with columns indexed by
`ι`. The second branch is the product unrolled by hand. -/
noncomputable def opJacobian {ι : Type} (o : OpPoint F) (J : Matrix (Fin 3 ⊕ Fin 3) ι F)
    (position : Pose F) : Matrix (Fin 3 ⊕ Fin 3) ι F :=
  if o.isEndEffector then twist o.transformation.inv * J
  else
    let oAB := position.R *ᵥ o.transformation.t
    Matrix.of (Sum.elim
      ![fun j => J (.inl 0) j - oAB 1 * J (.inr 2) j + oAB 2 * J (.inr 1) j,
        fun j => J (.inl 1) j - oAB 2 * J (.inr 0) j + oAB 0 * J (.inr 2) j,
        fun j => J (.inl 2) j - oAB 0 * J (.inr 1) j + oAB 1 * J (.inr 0) j]
      (fun k j => J (.inr k) j))

/-! ### Rotations from angles -/

/-- `sotAxis` (include/sot/core/vector-to-rotation.hh:47). -/
inductive Axis where
  | x | y | z

/-- The elementary rotation `Ra` (src/matrix/vector-to-rotation.cpp:48-74). -/
noncomputable def elementary (a : Axis) (angle : ℝ) : Matrix (Fin 3) (Fin 3) ℝ :=
  let ca := Real.cos angle
  let sa := Real.sin angle
  match a with
  | .x => !![1, 0, 0; 0, ca, -sa; 0, sa, ca]
  | .y => !![ca, 0, sa; 0, 1, 0; -sa, 0, ca]
  | .z => !![ca, -sa, 0; sa, ca, 0; 0, 0, 1]

/-- The loop of `computeRotation`, from the `i`-th axis on (src/matrix/vector-to-rotation.cpp:47-79). The
angles are read without check. -/
noncomputable def rotLoop (angles : List ℝ) :
    Nat → List Axis → Matrix (Fin 3) (Fin 3) ℝ → Outcome (Matrix (Fin 3) (Fin 3) ℝ)
  | _, [], res => .ok res
  | i, a :: as, res => (rd angles i).bind fun th => rotLoop angles (i + 1) as (res * elementary a th)

/-- `computeRotation` (src/matrix/vector-to-rotation.cpp:43-82). The axes are those of the object, whose
number is the member `size`; no command sets either, so that the entity as shipped has none. -/
noncomputable def computeRotation (axes : List Axis) (angles : List ℝ) :
    Outcome (Matrix (Fin 3) (Fin 3) ℝ) := rotLoop angles 0 axes 1

/-! ### Quaternions -/

/-- `VectorQuaternion`: `Eigen::Quaternion<double>` (include/sot/core/matrix-geometry.hh:78). -/
@[ext] structure Quat (F : Type) where
  w : F
  x : F
  y : F
  z : F

/-- Eigen's quaternion product (used by `Multiply_of_quaternion`, src/matrix/operator.cpp, and by the
product of the three axis-angle rotations, src/matrix/operator.hh:376-379, 453-456, 469-472). -/
def Quat.mul (a b : Quat F) : Quat F :=
  ⟨a.w * b.w - a.x * b.x - a.y * b.y - a.z * b.z,
   a.w * b.x + a.x * b.w + a.y * b.z - a.z * b.y,
   a.w * b.y + a.y * b.w + a.z * b.x - a.x * b.z,
   a.w * b.z + a.z * b.w + a.x * b.y - a.y * b.x⟩

/-- `m.conjugate()`: `InverserQuaternion` (src/matrix/operator.hh:279-282). -/
def Quat.conj (a : Quat F) : Quat F := ⟨a.w, -a.x, -a.y, -a.z⟩

/-- Eigen's `toRotationMatrix` (used by `QuaternionToMatrix`, src/matrix/operator.hh:483-488, and
`PoseQuaternionToMatrixHomo`, 341-347). -/
def Quat.toRot (a : Quat F) : Matrix (Fin 3) (Fin 3) F :=
  !![1 - (2 * a.y * a.y + 2 * a.z * a.z), 2 * a.x * a.y - 2 * a.w * a.z, 2 * a.x * a.z + 2 * a.w * a.y;
     2 * a.x * a.y + 2 * a.w * a.z, 1 - (2 * a.x * a.x + 2 * a.z * a.z), 2 * a.y * a.z - 2 * a.w * a.x;
     2 * a.x * a.z - 2 * a.w * a.y, 2 * a.y * a.z + 2 * a.w * a.x, 1 - (2 * a.x * a.x + 2 * a.y * a.y)]

/-- Eigen's conversion of an angle-axis to a quaternion, for the three unit axes (used in
src/matrix/operator.hh:376-378). -/
noncomputable def angleAxisQuat (a : Axis) (angle : ℝ) : Quat ℝ :=
  let c := Real.cos (angle / 2)
  let s := Real.sin (angle / 2)
  match a with
  | .x => ⟨c, s, 0, 0⟩
  | .y => ⟨c, 0, s, 0⟩
  | .z => ⟨c, 0, 0, s⟩

/-- The rotation of `RPYToMatrix` and `PoseRollPitchYawToMatrixHomo` (src/matrix/operator.hh:451-458,
373-379): the product of the three axis-angle rotations is a quaternion, converted to a matrix. -/
noncomputable def rpyToMatrix (r p y : ℝ) : Matrix (Fin 3) (Fin 3) ℝ :=
  (((angleAxisQuat .z y).mul (angleAxisQuat .y p)).mul (angleAxisQuat .x r)).toRot

/-- `PoseRollPitchYawToMatrixHomo` (src/matrix/operator.hh:371-387). -/
noncomputable def poseRpyToHomo (v : Fin 6 → ℝ) : Pose ℝ := ⟨rpyToMatrix (v 3) (v 4) (v 5), ![v 0, v 1, v 2]⟩

/-! ### Axis-angle poses -/

/-- Eigen's `AngleAxis::toRotationMatrix` for an angle and an axis (used by `PoseUThetaToMatrixHomo`,
src/matrix/operator.hh:314). -/
noncomputable def angleAxisMatrix (angle : ℝ) (u : Fin 3 → ℝ) : Matrix (Fin 3) (Fin 3) ℝ :=
  let c := Real.cos angle
  let s := Real.sin angle
  !![u 0 * u 0 * (1 - c) + c, u 0 * u 1 * (1 - c) - u 2 * s, u 0 * u 2 * (1 - c) + u 1 * s;
     u 0 * u 1 * (1 - c) + u 2 * s, u 1 * u 1 * (1 - c) + c, u 1 * u 2 * (1 - c) - u 0 * s;
     u 0 * u 2 * (1 - c) - u 1 * s, u 1 * u 2 * (1 - c) + u 0 * s, u 2 * u 2 * (1 - c) + c]

/-- `PoseUThetaToMatrixHomo` (src/matrix/operator.hh:307-318) for a vector of exactly six components; for
longer ones `tail<3>` takes the last three. -/
noncomputable def poseUThetaToHomo (v : Fin 6 → ℝ) : Pose ℝ :=
  let theta := Real.sqrt (v 3 ^ 2 + v 4 ^ 2 + v 5 ^ 2)
  ⟨if theta > 0 then angleAxisMatrix theta ![v 3 / theta, v 4 / theta, v 5 / theta] else 1,
    ![v 0, v 1, v 2]⟩

end Verif.Geometry
