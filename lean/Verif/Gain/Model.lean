import Mathlib.Analysis.SpecialFunctions.Exp
import Mathlib.Analysis.SpecialFunctions.Log.Basic
import Mathlib.Analysis.SpecialFunctions.Trigonometric.Basic
import Mathlib.Analysis.Real.Sqrt

/-!
# Model of `GainAdaptive` and `GainHyperbolic`
(src/task/gain-adaptive.cpp, src/task/gain-hyperbolic.cpp)

Numbers are reals.
-/

namespace Verif.Gain

/-- `error.norm()` (src/task/gain-adaptive.cpp:169, src/task/gain-hyperbolic.cpp:99). -/
noncomputable def norm (e : List ℝ) : ℝ := Real.sqrt ((e.map fun x => x * x).sum)

section AnyNumbers

variable {F : Type} [Add F] [Sub F] [Mul F] [Neg F]

/-- The formula of `GainAdaptive::computeGain`, with the function `exp` of the library (src/task/gain-adaptive.cpp:170): only the
operations that the code does. -/
def adaptiveValue (exp : F → F) (a b c norm : F) : F := a * exp (-b * norm) + c

/-- The formula of `GainHyperbolic::computeGain`, with the function `tanh` of the library and the constant `.5`
(src/task/gain-hyperbolic.cpp:100). -/
def hyperbolicValue [One F] (tanh : F → F) (half a b c d norm : F) : F := a * half * (tanh (-b * (norm - d)) + 1) + c

end AnyNumbers

/-- Coefficients of `GainAdaptive` (include/sot/core/gain-adaptive.hh:68-72). -/
structure Adaptive where
  a : ℝ
  b : ℝ
  c : ℝ

namespace Adaptive

/-- `GainAdaptive::init(valueAt0, valueAtInfty, tanAt0)` (src/task/gain-adaptive.cpp:103-114). -/
noncomputable def init (valueAt0 valueAtInfty tanAt0 : ℝ) : Adaptive :=
  open Classical in
  let a := valueAt0 - valueAtInfty
  ⟨a, if 0 = a then 0 else tanAt0 / a, valueAtInfty⟩

/-- `GainAdaptive::init(lambda)` (include/sot/core/gain-adaptive.hh:80). -/
noncomputable def initConstant (lambda : ℝ) : Adaptive := init lambda lambda 1

/-- `GainAdaptive::init()` (include/sot/core/gain-adaptive.hh:79, src/task/gain-adaptive.cpp:27-29). -/
noncomputable def initDefault : Adaptive := init (1 / 10) (1 / 10) 1

/-- `GainAdaptive::initFromPassingPoint` (src/task/gain-adaptive.cpp:133-146). -/
noncomputable def initFromPassingPoint (valueAt0 valueAtInfty xref p : ℝ) : Adaptive :=
  open Classical in
  let a := valueAt0 - valueAtInfty
  ⟨a, if 0 = a then 0 else -1 / xref * Real.log p, valueAtInfty⟩

/-- `GainAdaptive::forceConstant` (src/task/gain-adaptive.cpp:148). -/
def forceConstant (g : Adaptive) : Adaptive := { g with a := 0 }

/-- `GainAdaptive::computeGain` (src/task/gain-adaptive.cpp:166-174). -/
noncomputable def gain (g : Adaptive) (e : List ℝ) : ℝ := adaptiveValue Real.exp g.a g.b g.c (norm e)

end Adaptive

/-- Coefficients of `GainHyperbolic` (include/sot/core/gain-hyperbolic.hh:66-71). -/
structure Hyperbolic where
  a : ℝ
  b : ℝ
  c : ℝ
  d : ℝ

namespace Hyperbolic

/-- `GainHyperbolic::init(valueAt0, valueAtInfty, tanAt0, decal0)`
(src/task/gain-hyperbolic.cpp:62-74). -/
noncomputable def init (valueAt0 valueAtInfty tanAt0 decal0 : ℝ) : Hyperbolic :=
  open Classical in
  let a := valueAt0 - valueAtInfty
  ⟨a, if 0 = a then 0 else tanAt0 / a / 2, valueAtInfty, decal0⟩

/-- `GainHyperbolic::init(lambda)` (include/sot/core/gain-hyperbolic.hh:82). -/
noncomputable def initConstant (lambda : ℝ) : Hyperbolic := init lambda lambda 1 0

/-- `GainHyperbolic::forceConstant` (src/task/gain-hyperbolic.cpp:76). -/
def forceConstant (g : Hyperbolic) : Hyperbolic := { g with a := 0 }

/-- `GainHyperbolic::computeGain` (src/task/gain-hyperbolic.cpp:96-104). -/
noncomputable def gain (g : Hyperbolic) (e : List ℝ) : ℝ :=
  hyperbolicValue Real.tanh (1 / 2) g.a g.b g.c g.d (norm e)

end Hyperbolic

end Verif.Gain
