import Mathlib.Data.Real.Basic
import Mathlib.LinearAlgebra.Matrix.NonsingularInverse

/-!
# The Kalman filter

Model of `src/tools/kalman.cpp` and `include/sot/core/kalman.hh`.

Simplifications:

* doubles are real numbers;
* the sizes of the matrices agree: the state is indexed by `n`, the measurement by `m`;
* the two outputs are computed once for each time, in the order of the times: what the signals of dynamic-graph remember of a
  time already asked for, and the dependencies added at lines 79-80 and 143-149, are not modelled;
* `S_.inverse()` of a matrix which is not invertible, of which Eigen does not say anything, is the zero matrix here; every
  theorem assumes a positive definite `R`, so that it does not happen.
-/

namespace Verif.Kalman

open Matrix

variable {n m : Type} [Fintype n] [DecidableEq n] [Fintype m] [DecidableEq m]

/-- What the input signals carry at some time (`include/sot/core/kalman.hh:57-64`, `src/tools/kalman.cpp:29-37`). -/
structure Inputs (n m : Type) where
  F : Matrix n n ℝ
  Q : Matrix n n ℝ
  H : Matrix m n ℝ
  R : Matrix m m ℝ
  xPred : n → ℝ
  yPred : m → ℝ
  y : m → ℝ

/-- `stateEstimation_`, `stateVariance_` and `K_` (`include/sot/core/kalman.hh:159`, `:163`, `:183`). -/
structure State (n m : Type) where
  x : n → ℝ
  P : Matrix n n ℝ
  K : Matrix n m ℝ

/-- The variance of the prediction, `Pk_k_1_` (`src/tools/kalman.cpp:94-96`). -/
def predicted (P : Matrix n n ℝ) (i : Inputs n m) : Matrix n n ℝ := i.F * P * i.Fᵀ + i.Q

/-- `S_` (`src/tools/kalman.cpp:103`). -/
def innovation (P : Matrix n n ℝ) (i : Inputs n m) : Matrix m m ℝ := i.H * predicted P i * i.Hᵀ + i.R

/-- `K_` (`src/tools/kalman.cpp:104`). -/
noncomputable def gain (P : Matrix n n ℝ) (i : Inputs n m) : Matrix n m ℝ :=
  predicted P i * i.Hᵀ * (innovation P i)⁻¹

/-- `Pk_k` (`src/tools/kalman.cpp:105`). -/
noncomputable def updated (P : Matrix n n ℝ) (i : Inputs n m) : Matrix n n ℝ :=
  predicted P i - gain P i * i.H * predicted P i

/-- `computeVarianceUpdate`: the new state and the value of the output `P` (`src/tools/kalman.cpp:73-116`). -/
noncomputable def varianceUpdate (s : State n m) (time : ℤ) (i : Inputs n m) : State n m × Matrix n n ℝ :=
  if time = 0 then (s, s.P)
  else ({ s with P := updated s.P i, K := gain s.P i }, updated s.P i)

/-- `computeStateUpdate`: the new state and the value of the output `x_est` (`src/tools/kalman.cpp:137-173`). -/
noncomputable def stateUpdate (s : State n m) (time : ℤ) (i : Inputs n m) : State n m × (n → ℝ) :=
  if time = 0 then (s, s.x)
  else
    let s' := (varianceUpdate s time i).1
    let z := i.y - i.yPred
    let xEst := i.xPred + s'.K *ᵥ z
    ({ s' with x := xEst }, xEst)

/-- `setStateEstimation` (`include/sot/core/kalman.hh:146-149`). -/
def setState (s : State n m) (x0 : n → ℝ) : State n m := { s with x := x0 }

/-- `setStateVariance` (`include/sot/core/kalman.hh:151-154`). -/
def setVariance (s : State n m) (P0 : Matrix n n ℝ) : State n m := { s with P := P0 }

/-- What is asked of the filter (`src/tools/kalman.cpp:43-46` and `:58-69`). -/
inductive Op (n m : Type) where
  /-- The output `P` is read at a time at which it was not computed yet. -/
  | variance (time : ℤ) (i : Inputs n m)
  /-- The output `x_est` is read at a time at which neither output was computed yet. -/
  | state (time : ℤ) (i : Inputs n m)
  /-- The command `setInitialState`. -/
  | setState (x0 : n → ℝ)
  /-- The command `setInitialVariance`. -/
  | setVariance (P0 : Matrix n n ℝ)

/-- One operation (`src/tools/kalman.cpp:43-46` and `:58-69`). -/
noncomputable def step (s : State n m) : Op n m → State n m
  | .variance time i => (varianceUpdate s time i).1
  | .state time i => (stateUpdate s time i).1
  | .setState x0 => setState s x0
  | .setVariance P0 => setVariance s P0

/-- Any history of operations (`src/tools/kalman.cpp:43-46` and `:58-69`). -/
noncomputable def run (s : State n m) (h : List (Op n m)) : State n m := h.foldl step s

end Verif.Kalman
