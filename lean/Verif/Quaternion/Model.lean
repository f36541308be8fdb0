import Mathlib.Analysis.SpecialFunctions.Trigonometric.Basic
import Mathlib.LinearAlgebra.Matrix.Notation
import Mathlib.Data.Matrix.Basic

/-!
# The routines on quaternions of src/math/vector-quaternion.cpp

The file is kept in the repository but no target of the build contains it: what follows is what its text says, with real numbers for the
doubles. A computation that divides by zero, or takes the root of a negative number, gives numbers that are not finite: `none`.
-/

namespace Verif.Quaternion

/-- The four components `vector(0)` … `vector(3)`: the real part, then the vector part (src/math/vector-quaternion.cpp:30-33, 89-92). -/
structure Quat where
  r : ℝ
  x : ℝ
  y : ℝ
  z : ℝ

/-- `VectorQuaternion::toMatrix` (src/math/vector-quaternion.cpp:84-119). -/
def toMatrix (q : Quat) : Matrix (Fin 3) (Fin 3) ℝ :=
  !![q.r * q.r + q.x * q.x - q.y * q.y - q.z * q.z, 2 * (q.x * q.y - q.r * q.z), 2 * (q.z * q.x + q.r * q.y);
     2 * (q.x * q.y + q.r * q.z), q.r * q.r - q.x * q.x + q.y * q.y - q.z * q.z, 2 * (q.y * q.z - q.r * q.x);
     2 * (q.z * q.x - q.r * q.y), 2 * (q.y * q.z + q.r * q.x), q.r * q.r - q.x * q.x - q.y * q.y + q.z * q.z]

/-- The factor `0.5 / sqrt(d)` of the branches of `fromMatrix` (src/math/vector-quaternion.cpp:36, 45, 51, 57). -/
noncomputable def factor (d : ℝ) : Option ℝ := if 0 < d then some (0.5 / √d) else none

/-- `VectorQuaternion::fromMatrix` (src/math/vector-quaternion.cpp:20-67). -/
noncomputable def fromMatrix (R : Matrix (Fin 3) (Fin 3) ℝ) : Option Quat :=
  if 0 < 1.0 + R 0 0 + R 1 1 + R 2 2 then
    (factor (1.0 + R 0 0 + R 1 1 + R 2 2)).map fun s =>
      ⟨0.25 / s, (R 2 1 - R 1 2) * s, (R 0 2 - R 2 0) * s, (R 1 0 - R 0 1) * s⟩
  else if R 1 1 < R 0 0 ∧ R 2 2 < R 0 0 then
    (factor (1 + R 0 0 - R 1 1 - R 2 2)).map fun s =>
      ⟨(R 1 2 + R 2 1) * s, 0.5 * s, (R 0 1 + R 1 0) * s, (R 0 2 + R 2 0) * s⟩
  else if R 2 2 < R 1 1 then
    (factor (1 + R 0 0 - R 1 1 - R 2 2)).map fun s =>
      ⟨(R 0 2 + R 2 0) * s, (R 0 1 + R 1 0) * s, 0.5 * s, (R 1 2 + R 2 1) * s⟩
  else
    (factor (1 + R 0 0 - R 1 1 - R 2 2)).map fun s =>
      ⟨(R 0 1 + R 1 0) * s, (R 0 2 + R 2 0) * s, (R 1 2 + R 2 1) * s, 0.5 * s⟩

/-- `VectorQuaternion::fromVector` (src/math/vector-quaternion.cpp:69-82). -/
noncomputable def fromVector (u : Fin 3 → ℝ) : Option Quat :=
  let θ := √(u 0 * u 0 + u 1 * u 1 + u 2 * u 2)
  if Real.sin θ = 0 then none else some ⟨u 0 / Real.sin θ, u 1 / Real.sin θ, u 2 / Real.sin θ, Real.cos θ⟩

/-- The quaternions of the program, by name. -/
abbrev Mem := Nat → Quat

/-- Writing a component of an object. -/
def Mem.write (m : Mem) (a : Nat) (f : Quat → Quat) : Mem := fun b => if b = a then f (m a) else m b

/-- `VectorQuaternion::conjugate` (src/math/vector-quaternion.cpp:121-127) of the object `a`, written in the object `c`: the components are
written one after the other. -/
def conjugate (a c : Nat) (m : Mem) : Mem :=
  let m := m.write c fun q => { q with r := (m a).r }
  let m := m.write c fun q => { q with x := -(m a).x }
  let m := m.write c fun q => { q with y := -(m a).y }
  m.write c fun q => { q with z := -(m a).z }

/-- `VectorQuaternion::multiply` (src/math/vector-quaternion.cpp:129-147) of the objects `a` and `b`, written in the object `c`: the components
of the operands are references, read again for each component of the result. -/
def multiply (a b c : Nat) (m : Mem) : Mem :=
  let m := m.write c fun q =>
    { q with r := (m a).r * (m b).r - (m a).x * (m b).x - (m a).y * (m b).y - (m a).z * (m b).z }
  let m := m.write c fun q =>
    { q with x := (m a).r * (m b).x + (m a).x * (m b).r + (m a).y * (m b).z - (m a).z * (m b).y }
  let m := m.write c fun q =>
    { q with y := (m a).r * (m b).y + (m a).y * (m b).r + (m a).z * (m b).x - (m a).x * (m b).z }
  m.write c fun q =>
    { q with z := (m a).r * (m b).z + (m a).z * (m b).r + (m a).x * (m b).y - (m a).y * (m b).x }

end Verif.Quaternion
