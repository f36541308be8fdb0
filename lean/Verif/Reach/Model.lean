import Verif.Common.Outcome
import Mathlib.Analysis.SpecialFunctions.Trigonometric.Arctan
import Mathlib.Analysis.Complex.Trigonometric

/-!
# Model of the smooth reach

`SmoothReach` (src/tools/smooth-reach.cpp). Doubles are real numbers without rounding; the two places
where the code relies on IEEE infinities (`smoothParam / 0` inside `tanh` and `atan`) are modelled by
their IEEE value for a positive parameter, the other non-finite computations by the outcome `ub`.
-/

namespace Verif.Reach

/-- The members (include/sot/core/smooth-reach.hh; src/tools/smooth-reach.cpp:25-34). -/
structure State where
  start : List ℝ
  goal : List ℝ
  startTime : Int
  lengthTime : Int
  isStarted : Bool
  isParam : Bool
  mode : Int
  param : ℝ

/-- The constructor (src/tools/smooth-reach.cpp:25-34). -/
noncomputable def State.fresh : State := ⟨[], [], -1, -1, false, true, 2, 12 / 10⟩

/-- The command `set` (src/tools/smooth-reach.cpp:106-111). -/
def set (s : State) (goalDes : List ℝ) (lengthDes : Int) : State :=
  { s with
    goal := goalDes
    lengthTime := lengthDes
    isParam := true }

/-- The command `param` (src/tools/smooth-reach.cpp:79-82). -/
def setSmoothing (s : State) (mode : Int) (param : ℝ) : State := { s with mode := mode, param := param }

/-- `-smoothParam / x + smoothParam / (1 - x)` then a squashing function with limits 0 and 1: at `x = 0`
and `x = 1` the argument is `-∞` and `+∞` (IEEE, positive parameter) and the result is the limit. A
non-positive parameter is not modelled there: undefined outcome (src/tools/smooth-reach.cpp:69, 73). -/
noncomputable def squash (f : ℝ → ℝ) (p x : ℝ) : Outcome ℝ :=
  if x = 0 then (if 0 < p then .ok 0 else .ub)
  else if x = 1 then (if 0 < p then .ok 1 else .ub)
  else .ok (f (-p / x + p / (1 - x)))

/-- `smoothFunction` (src/tools/smooth-reach.cpp:62-77). -/
noncomputable def smoothFunction (s : State) (x : ℝ) : Outcome ℝ :=
  if s.mode = 0 then .ok x
  else if s.mode = 1 then squash (fun y => Real.tanh y / 2 + 1 / 2) s.param x
  else if s.mode = 2 then squash (fun y => Real.arctan y / Real.pi + 1 / 2) s.param x
  else .ok 0

/-- Sampling of the start position (src/tools/smooth-reach.cpp:86-93). The assertion on the sizes is a
precondition of the sum computed below. -/
def sample (s : State) (startIn : List ℝ) (time : Int) : State :=
  if s.isParam then
    { s with
      start := startIn
      startTime := time
      isParam := false
      isStarted := true }
  else s

/-- The clamped abscissa (src/tools/smooth-reach.cpp:96-97). A zero duration gives NaN or an infinity,
modelled as undefined. -/
noncomputable def abscissa (s : State) (time : Int) : Outcome ℝ :=
  if s.lengthTime = 0 then .ub
  else
    let x : ℝ := ((time - s.startTime : Int) : ℝ) / (s.lengthTime : ℝ)
    .ok (if x > 1 then 1 else x)

/-- `goalSOUT_function` (src/tools/smooth-reach.cpp:84-104): the new state and the output, `none` when
the previous content of the buffer is returned. -/
noncomputable def goalSOUT (s : State) (startIn : List ℝ) (time : Int) :
    Outcome (State × Option (List ℝ)) :=
  let s := sample s startIn time
  if s.isStarted then
    (abscissa s time).bind fun x => (smoothFunction s x).bind fun x1 =>
      let x0 := 1 - x1
      if s.start.length = s.goal.length then
        .ok (s, some (List.zipWith (fun a b => a * x0 + b * x1) s.start s.goal))
      else .ub
  else .ok (s, none)

/-- A sequence of evaluations at given times, with the value of the input at each. -/
noncomputable def evals (s : State) : List (Int × List ℝ) → Outcome (State × List (Option (List ℝ)))
  | [] => .ok (s, [])
  | (t, v) :: es => (goalSOUT s v t).bind fun r => (evals r.1 es).map fun q => (q.1, r.2 :: q.2)

end Verif.Reach
