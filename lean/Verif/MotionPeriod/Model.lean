import Verif.Common.Outcome
import Mathlib.Analysis.SpecialFunctions.Trigonometric.Basic

/-!
# The periodic motion, `MotionPeriod`

Simplifications: doubles are reals and `M_PI` is the number π. The times are `int` values and the periods `unsigned int` values, of 32 bits.
-/

namespace Verif.MotionPeriod

/-- `MotionPeriodType` (include/sot/core/motion-period.hh:56). -/
inductive Kind where
  | constant
  | sin
  | cos
  deriving DecidableEq

/-- `sotMotionParam` (include/sot/core/motion-period.hh:58-64). -/
structure Param where
  kind : Kind
  period : Nat
  initPeriod : Nat
  amplitude : ℝ
  initAmplitude : ℝ

/-- `time - p.initPeriod`, which is computed with `unsigned int` (src/tools/motion-period.cpp:53). -/
def elapsed (time : Int) (init : Nat) : Nat := ((time - init) % 4294967296).toNat

/-- One component of the motion (src/tools/motion-period.cpp:52-69). -/
noncomputable def component (time : Int) (p : Param) : Outcome ℝ :=
  if p.period = 0 then .ub
  else
    let x : ℝ := ((elapsed time p.initPeriod % p.period : Nat) : ℝ) / (p.period : ℝ)
    .ok (p.initAmplitude + match p.kind with
      | .constant => p.amplitude
      | .sin => p.amplitude * Real.sin (Real.pi * 2 * x)
      | .cos => p.amplitude * Real.cos (Real.pi * 2 * x))

/-- `MotionPeriod::computeMotion` (src/tools/motion-period.cpp:46-74). -/
noncomputable def motion (time : Int) : List Param → Outcome (List ℝ)
  | [] => .ok []
  | p :: ps => (component time p).bind fun v => (motion time ps).map fun l => v :: l

/-- `MotionPeriod::resize` (src/tools/motion-period.cpp:76-86). -/
noncomputable def resize (n : Nat) : List Param := List.replicate n ⟨.constant, 1, 0, 0, 0⟩

/-- The parameters after the constructor (src/tools/motion-period.cpp:31-40). No command and no public function changes them. -/
noncomputable def init : List Param := resize 0

end Verif.MotionPeriod
