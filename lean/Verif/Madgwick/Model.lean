import Verif.Geometry.Model
import Mathlib.Analysis.SpecialFunctions.Sqrt

/-!
# The attitude filter of Madgwick

Model of `src/filters/madgwickahrs.cpp` and `include/sot/core/madgwickahrs.hh`.

Simplifications:

* doubles are real numbers; the results which are not numbers (a division by zero) are `none`, and stay so;
* the two measurements have the three components they are made of, and the vector given to `set_imu_quat` the four it
  asserts;
* the profiler and the messages are left out.
-/

namespace Verif.Madgwick

open Verif.Geometry

/-- The attributes of the entity (`include/sot/core/madgwickahrs.hh:119-127`); `q` is `m_q0`, `m_q1`, `m_q2`, `m_q3`. -/
structure State where
  initSucceeded : Bool
  beta : ℝ
  q : Quat ℝ
  sampleFreq : ℝ

/-- The constructor (`src/filters/madgwickahrs.cpp:44-56`); `betaDef` is `include/sot/core/madgwickahrs.hh:58`. -/
noncomputable def State.create : State := ⟨false, 0.01, ⟨1, 0, 0, 0⟩, 512⟩

/-- `init` (`src/filters/madgwickahrs.cpp:77-81`). -/
noncomputable def init (s : State) (dt : ℝ) : State :=
  if dt ≤ 0 then s else { s with sampleFreq := 1 / dt, initSucceeded := true }

/-- `set_beta` (`src/filters/madgwickahrs.cpp:83-87`). -/
noncomputable def setBeta (s : State) (beta : ℝ) : State :=
  if beta < 0 ∨ 1 < beta then s else { s with beta := beta }

/-- `set_imu_quat` (`src/filters/madgwickahrs.cpp:89-95`). -/
def setQuat (s : State) (q : Quat ℝ) : State := { s with q := q }

/-- `invSqrt`, `none` when the quotient is not a number (`src/filters/madgwickahrs.cpp:134-144`). -/
noncomputable def invSqrt (x : ℝ) : Option ℝ := if x ≤ 0 then none else some (1 / √x)

/-- `qDot1` to `qDot4` from the gyroscope (`src/filters/madgwickahrs.cpp:156-159`). -/
noncomputable def gyroRate (q : Quat ℝ) (gx gy gz : ℝ) : Quat ℝ :=
  ⟨0.5 * (-q.x * gx - q.y * gy - q.z * gz),
   0.5 * (q.w * gx + q.y * gz - q.z * gy),
   0.5 * (q.w * gy - q.x * gz + q.z * gx),
   0.5 * (q.w * gz + q.x * gy - q.y * gx)⟩

/-- `s0` to `s3` before their normalisation (`src/filters/madgwickahrs.cpp:171-191`). -/
def feedback (q : Quat ℝ) (ax ay az : ℝ) : Quat ℝ :=
  let o2q0 := 2 * q.w
  let o2q1 := 2 * q.x
  let o2q2 := 2 * q.y
  let o2q3 := 2 * q.z
  let o4q0 := 4 * q.w
  let o4q1 := 4 * q.x
  let o4q2 := 4 * q.y
  let o8q1 := 8 * q.x
  let o8q2 := 8 * q.y
  let q0q0 := q.w * q.w
  let q1q1 := q.x * q.x
  let q2q2 := q.y * q.y
  let q3q3 := q.z * q.z
  ⟨o4q0 * q2q2 + o2q2 * ax + o4q0 * q1q1 - o2q1 * ay,
   o4q1 * q3q3 - o2q3 * ax + 4 * q0q0 * q.x - o2q0 * ay - o4q1 + o8q1 * q1q1 + o8q1 * q2q2 + o4q1 * az,
   4 * q0q0 * q.y + o2q0 * ax + o4q2 * q3q3 - o2q3 * ay - o4q2 + o8q2 * q1q1 + o8q2 * q2q2 + o4q2 * az,
   4 * q1q1 * q.z - o2q1 * ax + 4 * q2q2 * q.z - o2q2 * ay⟩

/-- Lines 192-205 of `src/filters/madgwickahrs.cpp`: the rate less the normalised feedback. -/
noncomputable def applyFeedback (beta : ℝ) (qDot s : Quat ℝ) : Option (Quat ℝ) :=
  if ¬ (s.w = 0 ∧ s.x = 0 ∧ s.y = 0 ∧ s.z = 0) then
    (invSqrt (s.w * s.w + s.x * s.x + s.y * s.y + s.z * s.z)).map fun r =>
      ⟨qDot.w - beta * (s.w * r), qDot.x - beta * (s.x * r), qDot.y - beta * (s.y * r), qDot.z - beta * (s.z * r)⟩
  else some qDot

/-- The rate of the quaternion (`src/filters/madgwickahrs.cpp:156-206`). -/
noncomputable def rate (beta : ℝ) (q : Quat ℝ) (gx gy gz ax ay az : ℝ) : Option (Quat ℝ) :=
  let qDot := gyroRate q gx gy gz
  if ¬ (ax = 0 ∧ ay = 0 ∧ az = 0) then
    (invSqrt (ax * ax + ay * ay + az * az)).bind fun r =>
      applyFeedback beta qDot (feedback q (ax * r) (ay * r) (az * r))
  else some qDot

/-- `madgwickAHRSupdateIMU` (`src/filters/madgwickahrs.cpp:147-220`). -/
noncomputable def update (beta sampleFreq : ℝ) (q : Quat ℝ) (gx gy gz ax ay az : ℝ) : Option (Quat ℝ) :=
  (rate beta q gx gy gz ax ay az).bind fun d =>
    let q0 := q.w + d.w * (1 / sampleFreq)
    let q1 := q.x + d.x * (1 / sampleFreq)
    let q2 := q.y + d.y * (1 / sampleFreq)
    let q3 := q.z + d.z * (1 / sampleFreq)
    (invSqrt (q0 * q0 + q1 * q1 + q2 * q2 + q3 * q3)).map fun r => ⟨q0 * r, q1 * r, q2 * r, q3 * r⟩

/-- A computation of the output `imu_quat` with these measurements (`src/filters/madgwickahrs.cpp:101-124`). The value of
the signal is the quaternion of the new state, once initialised; before, it is left as it was. -/
noncomputable def measure (s : State) (g a : Fin 3 → ℝ) : Option State :=
  if ¬ s.initSucceeded then some s
  else (update s.beta s.sampleFreq s.q (g 0) (g 1) (g 2) (a 0) (a 1) (a 2)).map fun q => { s with q := q }

/-- What is asked of the entity (`src/filters/madgwickahrs.cpp:60-74` and `:101-124`). -/
inductive Op where
  | init (dt : ℝ)
  | setBeta (beta : ℝ)
  | setQuat (q : Quat ℝ)
  | measure (g a : Fin 3 → ℝ)

/-- One operation (`src/filters/madgwickahrs.cpp:60-74` and `:101-124`). -/
noncomputable def step (s : State) : Op → Option State
  | .init dt => some (init s dt)
  | .setBeta beta => some (setBeta s beta)
  | .setQuat q => some (setQuat s q)
  | .measure g a => measure s g a

/-- Any history (`src/filters/madgwickahrs.cpp:60-74` and `:101-124`); `none` once something is not a number. -/
noncomputable def run (s : State) (h : List Op) : Option State := h.foldlM step s

end Verif.Madgwick
