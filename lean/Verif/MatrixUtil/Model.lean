import Verif.Geometry.Convert
import Verif.Homogeneous.Model

/-!
# The small matrix functions of the Python library

Simplifications: floats are reals, sines, cosines, square roots and arc tangents are exact. A transformation is a four by four matrix. The
two random vectors of `generateOrthonormalM` are arguments; a division by zero, which gives numbers that are not numbers, is an undefined outcome.
-/

namespace Verif.MatrixUtil

open Matrix Verif.Geometry Verif.Homogeneous

/-- `rotate` (src/dynamic_graph/sot/core/matrix_util.py:110-122): on another axis a message is printed and the result is a variable that was
not assigned. -/
noncomputable def rotate (axis : String) (ang : ℝ) : Outcome (Homo ℝ) :=
  let ca := Real.cos ang
  let sa := Real.sin ang
  if axis = "x" then .ok !![1, 0, 0, 0; 0, ca, -sa, 0; 0, sa, ca, 0; 0, 0, 0, 1]
  else if axis = "y" then .ok !![ca, 0, sa, 0; 0, 1, 0, 0; -sa, 0, ca, 0; 0, 0, 0, 1]
  else if axis = "z" then .ok !![ca, -sa, 0, 0; sa, ca, 0, 0; 0, 0, 1, 0; 0, 0, 0, 1]
  else .throw

/-- `rpy2tr` (src/dynamic_graph/sot/core/matrix_util.py:31-33). -/
noncomputable def rpy2tr (r p y : ℝ) : Outcome (Homo ℝ) :=
  (rotate "z" y).bind fun z => (rotate "y" p).bind fun y' => (rotate "x" r).bind fun x => .ok (z * y' * x)

/-- `distVector` (src/dynamic_graph/sot/core/matrix_util.py:37-41). -/
def distVector (M2 M1 : Homo ℝ) : Fin 3 → ℝ := ![M1 0 3 - M2 0 3, M1 1 3 - M2 1 3, M1 2 3 - M2 2 3]

/-- `tr2rpy` (src/dynamic_graph/sot/core/matrix_util.py:75-89). -/
noncomputable def tr2rpy (M : Homo ℝ) : ℝ × ℝ × ℝ :=
  let m := Real.sqrt (M 2 1 ^ 2 + M 2 2 ^ 2)
  let p := atan2 (-M 2 0) m
  if |p - Real.pi / 2| < 0.001 then (0, p, atan2 (M 0 1) (M 1 1))
  else if |p + Real.pi / 2| < 0.001 then (0, p, -atan2 (M 0 1) (M 1 1))
  else (atan2 (M 1 0) (M 0 0), p, atan2 (M 2 1) (M 2 2))

/-- `matrixToRPY` (src/dynamic_graph/sot/core/matrix_util.py:92-97). -/
noncomputable def matrixToRPY (M : Homo ℝ) : Fin 6 → ℝ :=
  let rot := tr2rpy M
  ![M 0 3, M 1 3, M 2 3, rot.2.2, rot.2.1, rot.1]

/-- `RPYToMatrix` (src/dynamic_graph/sot/core/matrix_util.py:100-106). -/
noncomputable def RPYToMatrix (pr : Fin 6 → ℝ) : Outcome (Homo ℝ) :=
  (rpy2tr (pr 3) (pr 4) (pr 5)).bind fun M => .ok fun i j => if h : i.1 < 3 ∧ j = 3 then pr ⟨i.1, by omega⟩ else M i j

/-- The inner product of two vectors (src/dynamic_graph/sot/core/matrix_util.py:57, 60). -/
def inner3 (a b : Fin 3 → ℝ) : ℝ := a 0 * b 0 + a 1 * b 1 + a 2 * b 2

/-- `u / norm(u)` (src/dynamic_graph/sot/core/matrix_util.py:55, 58, 61). -/
noncomputable def normalise (u : Fin 3 → ℝ) : Outcome (Fin 3 → ℝ) :=
  if Real.sqrt (inner3 u u) = 0 then .ub else .ok fun i => u i / Real.sqrt (inner3 u u)

/-- `generateOrthonormalM` (src/dynamic_graph/sot/core/matrix_util.py:49-71), with the two random vectors. -/
noncomputable def generateOrthonormalM (v1 v2 v3 : Fin 3 → ℝ) : Outcome (Matrix (Fin 3) (Fin 3) ℝ) :=
  (normalise v1).bind fun e1 =>
  (normalise fun i => v2 i - inner3 v2 e1 * e1 i).bind fun e2 =>
  (normalise fun i => v3 i - inner3 v3 e1 * e1 i - inner3 v3 e2 * e2 i).bind fun e3 =>
  .ok !![e1 0, e2 0, e3 0; e1 1, e2 1, e3 1; e1 2, e2 2, e3 2]

/-- `quaternionToMatrix` (src/dynamic_graph/sot/core/matrix_util.py:125-144), on `x`, `y`, `z`, `w`. -/
def quaternionToMatrix (q : Fin 4 → ℝ) : Matrix (Fin 3) (Fin 3) ℝ :=
  let qx := q 0
  let qy := q 1
  let qz := q 2
  let qw := q 3
  !![1 - 2 * qy ^ 2 - 2 * qz ^ 2, 2 * qx * qy - 2 * qz * qw, 2 * qx * qz + 2 * qy * qw;
     2 * qx * qy + 2 * qz * qw, 1 - 2 * qx ^ 2 - 2 * qz ^ 2, 2 * qy * qz - 2 * qx * qw;
     2 * qx * qz - 2 * qy * qw, 2 * qy * qz + 2 * qx * qw, 1 - 2 * qx ^ 2 - 2 * qy ^ 2]

end Verif.MatrixUtil
