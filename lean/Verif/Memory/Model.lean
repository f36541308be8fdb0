import Verif.Common.Outcome
import Mathlib.Algebra.Notation.Defs

/-!
# Models of small entities with a memory: `ExpMovingAvg`, `GradientAscent`, `Derivator`, `Latch`

The numbers have the operations that the code does, exact or not. Vectors are lists; an operation on vectors of different sizes is undefined
behaviour (the size checks of Eigen are assertions). The model is of one recomputation of the output signal; when a signal
is recomputed is the business of dynamic-graph and not modelled.
-/

namespace Verif.Memory

variable {F : Type} [Zero F] [One F] [Neg F] [Add F] [Sub F] [Mul F] [Div F] [DecidableEq F]

/-- A coefficient-wise operation of Eigen on two vectors: undefined behaviour when the sizes differ. -/
def vzip (f : F → F → F) (a b : List F) : Outcome (List F) :=
  if a.length = b.length then .ok (List.zipWith f a b) else .ub

/-! ## ExpMovingAvg -/

/-- Members of `ExpMovingAvg` (include/sot/core/exp-moving-avg.hh:50-53). -/
structure Ema (F : Type) where
  average : List F
  alpha : F
  init : Bool

/-- Constructor (src/tools/exp-moving-avg.cpp:38-39). -/
def Ema.new : Ema F := ⟨[], 0, false⟩

/-- `setAlpha` (src/tools/exp-moving-avg.cpp:61-64). The assertion tests the old value of the member, not the argument. -/
def Ema.setAlpha (e : Ema F) (a : F) : Ema F := { e with alpha := a }

/-- `update` (src/tools/exp-moving-avg.cpp:66-79): the new members; the output is the new average. -/
def Ema.update (e : Ema F) (u : List F) : Outcome (Ema F) :=
  let avg := if e.init then e.average else List.replicate u.length 0
  (vzip (fun a x => e.alpha * a + (1 - e.alpha) * x) avg u).map fun r => { e with average := r, init := true }

/-- What happens to an `ExpMovingAvg`. -/
inductive EmaOp (F : Type) where
  | setAlpha (a : F)
  | update (u : List F)

/-- A history. -/
def Ema.run : Ema F → List (EmaOp F) → Outcome (Ema F)
  | e, [] => .ok e
  | e, .setAlpha a :: os => Ema.run (e.setAlpha a) os
  | e, .update u :: os => (e.update u).bind fun e' => Ema.run e' os

/-! ## GradientAscent -/

/-- Members of `GradientAscent` (include/sot/core/gradient-ascent.hh). -/
structure Ascent (F : Type) where
  value : List F
  init : Bool

/-- `update` (src/tools/gradient-ascent.cpp:52-67): the output is the new value. -/
def Ascent.update (s : Ascent F) (rate : F) (g : List F) : Outcome (Ascent F) :=
  let v := if s.init then s.value else List.replicate g.length 0
  (vzip (fun a x => a + rate * x) v g).map fun r => ⟨r, true⟩

/-- A history of learning rates and gradients. -/
def Ascent.run : Ascent F → List (F × List F) → Outcome (Ascent F)
  | s, [] => .ok s
  | s, (r, g) :: os => (s.update r g).bind fun s' => Ascent.run s' os

/-! ## Derivator -/

/-- Members of `Derivator` (include/sot/core/derivator.hh:43-45). -/
structure Deriv (F : Type) where
  memory : List F
  initialized : Bool

/-- `computeDerivation` (include/sot/core/derivator.hh:76-90; 93-109 for quaternions, on the four coefficients): result and
members. `dt` is the current time step, which is an input signal. -/
def Deriv.compute (s : Deriv F) (dt : F) (x : List F) : Outcome (List F × Deriv F) :=
  if s.initialized then
    (vzip (fun r m => r + m) (s.memory.map fun m => m * (-1)) x).map fun r =>
      (if dt ≠ 1 then r.map (fun v => v * (1 / dt)) else r, ⟨x, true⟩)
  else .ok (x.map (fun m => m * 0), ⟨x, true⟩)

/-- A history of time steps and inputs, with the outputs. -/
def Deriv.run : Deriv F → List (F × List F) → Outcome (List (List F) × Deriv F)
  | s, [] => .ok ([], s)
  | s, (dt, x) :: os =>
    (s.compute dt x).bind fun r => (Deriv.run r.2 os).map fun q => (r.1 :: q.1, q.2)

/-! ## Latch -/

/-- What happens to a `Latch` (include/sot/core/latch.hh:42-57): commands, evaluation of the two output signals that act as
commands, evaluation of the output. -/
inductive LatchOp where
  | turnOn | turnOff | turnOnSout | turnOffSout | out
  deriving DecidableEq

/-- One operation on the member `signalOutput`, with the value returned when it is an evaluation. -/
def latchStep (s : Bool) : LatchOp → Bool × Option Bool
  | .turnOn => (true, none)
  | .turnOff => (false, none)
  | .turnOnSout => (true, some true)
  | .turnOffSout => (false, some false)
  | .out => (s, some s)

/-- A history from a new latch (include/sot/core/latch.hh:68). -/
def latchRun (os : List LatchOp) : Bool := os.foldl (fun s o => (latchStep s o).1) false

end Verif.Memory
