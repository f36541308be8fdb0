import Verif.Task.Model
import Mathlib.Analysis.SpecialFunctions.Exp

/-!
# The task with a smooth beginning, `TaskConti`

Simplifications: doubles are reals; the error, the gain and the Jacobian are arguments, the Jacobian being absent when its evaluation throws
(an exception of the error or of the gain leaves the function before it has done anything). The debug prints are left out. A statement
`throw;` that is executed while no exception is handled calls `std::terminate`.
-/

namespace Verif.TaskConti

open Verif.MultiBound

/-- The members (include/sot/core/task-conti.hh:54-56). -/
structure State where
  timeRef : Int
  mu : ℝ
  q0 : List ℝ

/-- The constructor (src/task/task-conti.cpp:31-39); `TIME_REF_UNSIGNIFICANT` is -1 (include/sot/core/task-conti.hh:52). -/
def init : State := { timeRef := -1, mu := 0, q0 := [] }

/-- The value of an `int` after the conversion of an `unsigned int`. -/
def toInt32 (t : Nat) : Int := if t % 4294967296 < 2147483648 then (t % 4294967296 : Nat) else (t % 4294967296 : Nat) - 4294967296

/-- `referenceTime(t)` (include/sot/core/task-conti.hh:65). -/
def setReferenceTime (s : State) (t : Nat) : State := { s with timeRef := toInt32 t }

/-- A Jacobian: its rows and its number of columns. -/
structure Jac where
  rows : List (List ℝ)
  cols : Nat

/-- How a call ends. -/
inductive End where
  | ok (s : State) (v : List (MultiBound ℝ))
  | terminate
  | ub

/-- `for (int j = 6; j < J.cols(); ++j) deref(i) += J(i, j) * q0(j - 6)` from zero (src/task/task-conti.cpp:56-57). -/
def derefRow (row q0 : List ℝ) : ℝ := (List.zipWith (· * ·) (row.drop 6) q0).sum

/-- The handler (src/task/task-conti.cpp:89-95). -/
def handler (s : State) (err : List ℝ) (gain : ℝ) : End := .ok s (err.map fun e => ofSingle 0 (-gain * e))

/-- `TaskConti::computeContiDesiredVelocity` (src/task/task-conti.cpp:41-96). The sum of vectors of different sizes is undefined, and so
is a difference of times that is not an `int`. -/
noncomputable def desiredVelocity (s : State) (err : List ℝ) (gain : ℝ) (jac : Option Jac) (time : Int) : End :=
  match jac with
  | none => handler s err gain
  | some J =>
    if (s.q0.length : Int) ≠ (J.cols : Int) - 6 then .terminate
    else
      let deref := J.rows.map fun row => derefRow row s.q0
      let s' := if s.timeRef = -2 then { s with timeRef := time } else s
      if s'.timeRef < 0 then handler s' err gain
      else if s'.timeRef - time < -2147483648 ∨ 2147483647 < s'.timeRef - time then .ub
      else
        let dt : ℝ := ((s'.timeRef - time : Int) : ℝ) * (s'.mu / 200)
        let contiGain := Real.exp dt
        let g := (contiGain - 1) * gain
        if err.length ≠ deref.length then .ub
        else .ok s' (List.zipWith (fun e d => ofSingle 0 (e * g + d * contiGain)) err deref)

/-- What can be done to the entity: the reference time can be set, and the signal can be evaluated. No command sets `mu` or `q0`. -/
inductive Op where
  | setTime (t : Nat)
  | eval (err : List ℝ) (gain : ℝ) (jac : Option Jac) (time : Int)

/-- The state after an operation, when the process goes on. -/
inductive Step : State → Op → State → Prop where
  | setTime (s t) : Step s (.setTime t) (setReferenceTime s t)
  | eval {s err gain jac time s' v} (h : desiredVelocity s err gain jac time = .ok s' v) : Step s (.eval err gain jac time) s'

/-- The states that a history reaches. -/
inductive Reached : State → Prop where
  | init : Reached init
  | step {s op s'} (h : Reached s) (hs : Step s op s') : Reached s'

end Verif.TaskConti
