import Verif.Geometry.Model
import Mathlib.Analysis.SpecialFunctions.Complex.Arg
import Mathlib.Analysis.Real.Sqrt

/-!
# Model of the conversions between representations of a rotation

The conversions themselves are Eigen's (`Quaternion::operator=(Matrix3)`, `AngleAxis::operator=(Quaternion)`,
`MatrixBase::eulerAngles`), transcribed from their published algorithms; this code calls them in
src/matrix/operator.hh:288-509. `atan2(y, x)` is the argument of the complex number `x + i y` (zero at zero, as for doubles).
-/

namespace Verif.Geometry

open Matrix

/-- `atan2`. -/
noncomputable def atan2 (y x : ℝ) : ℝ := Complex.arg ⟨x, y⟩

/-- The branch of Eigen's conversion where diagonal entry `i` is the largest: the squared component `i` of the quaternion is
known, the others follow. Result in the order `w`, component `i`, component `j`, component `k`. -/
noncomputable def quatBranch (m : Matrix (Fin 3) (Fin 3) ℝ) (i j k : Fin 3) : ℝ × ℝ × ℝ × ℝ :=
  let t := Real.sqrt (m i i - m j j - m k k + 1)
  let u := 0.5 / t
  ((m k j - m j k) * u, 0.5 * t, (m j i + m i j) * u, (m k i + m i k) * u)

/-- Eigen's conversion of a rotation matrix to a quaternion: `MatrixToQuaternion` (src/matrix/operator.hh:490-495),
`MatrixHomoToPoseQuaternion` (349-357), `RPYToQuaternion` (466-474). -/
noncomputable def quatOfRot (m : Matrix (Fin 3) (Fin 3) ℝ) : Quat ℝ :=
  let t := m 0 0 + m 1 1 + m 2 2
  if t > 0 then
    let s := Real.sqrt (t + 1)
    let u := 0.5 / s
    ⟨0.5 * s, (m 2 1 - m 1 2) * u, (m 0 2 - m 2 0) * u, (m 1 0 - m 0 1) * u⟩
  else
    let i1 := m 1 1 > m 0 0
    if (if i1 then m 2 2 > m 1 1 else m 2 2 > m 0 0) then
      let (w, z, x, y) := quatBranch m 2 0 1
      ⟨w, x, y, z⟩
    else if i1 then
      let (w, y, z, x) := quatBranch m 1 2 0
      ⟨w, x, y, z⟩
    else
      let (w, x, y, z) := quatBranch m 0 1 2
      ⟨w, x, y, z⟩

/-- Eigen's conversion of a quaternion to an angle and an axis. -/
noncomputable def angleAxisOfQuat (q : Quat ℝ) : ℝ × (Fin 3 → ℝ) :=
  let n := Real.sqrt (q.x ^ 2 + q.y ^ 2 + q.z ^ 2)
  if n ≠ 0 then
    let n' := if q.w < 0 then -n else n
    (2 * atan2 n |q.w|, ![q.x / n', q.y / n', q.z / n'])
  else (0, ![1, 0, 0])

/-- Eigen's conversion of a rotation matrix to an angle and an axis, through a quaternion: `MatrixToUTheta`
(src/matrix/operator.hh:497-501). -/
noncomputable def angleAxisOfRot (m : Matrix (Fin 3) (Fin 3) ℝ) : ℝ × (Fin 3 → ℝ) := angleAxisOfQuat (quatOfRot m)

/-- Eigen's conversion of an angle and an axis to a quaternion: `UThetaToQuaternion` (src/matrix/operator.hh:503-508). -/
noncomputable def quatOfAngleAxis (angle : ℝ) (u : Fin 3 → ℝ) : Quat ℝ :=
  ⟨Real.cos (0.5 * angle), Real.sin (0.5 * angle) * u 0, Real.sin (0.5 * angle) * u 1, Real.sin (0.5 * angle) * u 2⟩

/-- `MatrixHomoToPoseUTheta` (src/matrix/operator.hh:288-296). -/
noncomputable def homoToPoseUTheta (m : Pose ℝ) : Fin 6 → ℝ :=
  let r := angleAxisOfRot m.R
  ![m.t 0, m.t 1, m.t 2, r.1 * r.2 0, r.1 * r.2 1, r.1 * r.2 2]

/-- `MatrixHomoToPoseQuaternion` (src/matrix/operator.hh:349-357): Eigen stores `x`, `y`, `z`, `w`. -/
noncomputable def homoToPoseQuat (m : Pose ℝ) : Fin 7 → ℝ :=
  let q := quatOfRot m.R
  ![m.t 0, m.t 1, m.t 2, q.x, q.y, q.z, q.w]

/-- `PoseQuaternionToMatrixHomo` (src/matrix/operator.hh:341-347), for a vector of exactly seven components. -/
noncomputable def poseQuatToHomo (v : Fin 7 → ℝ) : Pose ℝ := ⟨(Quat.mk (v 6) (v 3) (v 4) (v 5)).toRot, ![v 0, v 1, v 2]⟩

/-- Eigen's `eulerAngles(2, 1, 0)` of a matrix: yaw, pitch, roll. -/
noncomputable def eulerAngles (m : Matrix (Fin 3) (Fin 3) ℝ) : ℝ × ℝ × ℝ :=
  let y0 := atan2 (m 1 0) (m 0 0)
  let c2 := Real.sqrt (m 2 2 ^ 2 + m 2 1 ^ 2)
  let y := if y0 < 0 then y0 + Real.pi else y0
  let p := if y0 < 0 then atan2 (-m 2 0) (-c2) else atan2 (-m 2 0) c2
  let s1 := Real.sin y
  let c1 := Real.cos y
  (y, p, atan2 (s1 * m 0 2 - c1 * m 1 2) (c1 * m 1 1 - s1 * m 0 1))

/-- `MatrixToRPY` (src/matrix/operator.hh:460-464): roll, pitch, yaw. -/
noncomputable def matrixToRpy (m : Matrix (Fin 3) (Fin 3) ℝ) : ℝ × ℝ × ℝ :=
  let e := eulerAngles m
  (e.2.2, e.2.1, e.1)

/-- `QuaternionToRPY` (src/matrix/operator.hh:476-481). -/
noncomputable def quatToRpy (q : Quat ℝ) : ℝ × ℝ × ℝ := matrixToRpy q.toRot

/-- `RPYToQuaternion` (src/matrix/operator.hh:466-474). -/
noncomputable def rpyToQuat (r p y : ℝ) : Quat ℝ := quatOfRot (rpyToMatrix r p y)

/-- `MatrixHomoToPoseRollPitchYaw` (src/matrix/operator.hh:359-369). -/
noncomputable def homoToPoseRpy (m : Pose ℝ) : Fin 6 → ℝ :=
  let r := matrixToRpy m.R
  ![m.t 0, m.t 1, m.t 2, r.1, r.2.1, r.2.2]

/-- `PoseRollPitchYawToPoseUTheta` (src/matrix/operator.hh:389-406). -/
noncomputable def poseRpyToPoseUTheta (v : Fin 6 → ℝ) : Fin 6 → ℝ :=
  let r := angleAxisOfRot (rpyToMatrix (v 3) (v 4) (v 5))
  ![v 0, v 1, v 2, r.1 * r.2 0, r.1 * r.2 1, r.1 * r.2 2]

end Verif.Geometry
